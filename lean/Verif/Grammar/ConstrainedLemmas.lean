import Verif.Grammar.ConstrainedModel
import Verif.Grammar.SampleLemmas

/-!
# Lemmas on constrained sampling
-/

namespace Verif.Gram

/-- Both kinds of constraint, as the sampler uses them. -/
structure Rule where
  State : Type
  start : Sym → Option State
  na : Sym → State → Str → Option (List Production)
  upd : State → Str → Option State

namespace Rule

/-- The state before the next argument. -/
def At (R : Rule) (op : Sym) (before : List Str) : Option R.State :=
  (R.start op).bind fun st => before.foldlM R.upd st

/-- The argument is possible. -/
def Permits (R : Rule) (op : Sym) (before : List Str) (B : Str) (k : Forest) : Prop :=
  ∃ st na st', R.At op before = some st ∧ R.na op st B = some na ∧ ⟨B, k.heads⟩ ∉ na ∧
    R.upd st (treeText B k) = some st'

theorem At_append {R : Rule} {op : Sym} {before : List Str} {st st' : R.State} {s : Str}
    (h : R.At op before = some st) (h' : R.upd st s = some st') :
    R.At op (before ++ [s]) = some st' := by
  unfold At at h ⊢
  cases hs : R.start op with
  | none => rw [hs] at h; simp at h
  | some st0 =>
    rw [hs] at h
    simp only [Option.bind_some] at h ⊢
    rw [List.foldlM_append, h]
    simp [h']

end Rule

/-- `_constrained_sampler` for either kind of constraint. -/
def ruleSampler (g : Grammar) (R : Rule) (up : Bool) :
    ℕ → Str → List Production → List ℕ → Option (Str × List ℕ)
  | 0, _, _, _ => none
  | fuel + 1, A, notAllowed, ds =>
    let productions := (g.productions A).filter (· ∉ notAllowed)
    if productions.length = 0 then none
    else
      match constrainedProbs g up A notAllowed with
      | none => none
      | some p =>
        match choice productions.length p ds with
        | none => none
        | some (i, ds) =>
          match productions[i]? with
          | none => none
          | some production =>
            match production.rhs.head? with
            | none => none
            | some op =>
              match R.start op with
              | none => none
              | some st =>
                cexpand (ruleSampler g R up fuel) (R.na op) R.upd production.rhs ('(' :: A) st ds

/-- The constraint function as a rule. -/
def funRule (g : CGrammar) (c : FunConstraint) : Rule where
  State := List (Option Str) × ℕ
  start op := (c.start op).map fun d => (d, 0)
  na := funNotAllowed g c
  upd := funUpdate

/-- The constraint object as a rule. -/
def objRule (g : CGrammar) (c : ObjConstraint) : Rule where
  State := Option c.State
  start := c.start
  na _ := objNotAllowed g c
  upd := objUpdate c

theorem cSamplerRec_fun {g : CGrammar} {c : FunConstraint} (hc : g.constraints = .fn c) (up : Bool)
    (fuel : ℕ) : cSamplerRec g up fuel = ruleSampler g.toGrammar (funRule g c) up fuel := by
  induction fuel with
  | zero => rfl
  | succ fuel ih =>
    funext A na ds
    simp only [cSamplerRec, ruleSampler, hc, ih]
    split_ifs
    · rfl
    · cases constrainedProbs g.toGrammar up A na with
      | none => rfl
      | some p =>
        simp only
        cases choice ((g.productions A).filter (· ∉ na)).length p ds with
        | none => rfl
        | some r =>
          obtain ⟨i, ds⟩ := r
          simp only
          cases ((g.productions A).filter (· ∉ na))[i]? with
          | none => rfl
          | some prod =>
            simp only
            cases prod.rhs.head? with
            | none => rfl
            | some op =>
              simp only
              cases hs : c.start op with
              | none => simp [funRule, hs]
              | some d =>
                have : (funRule g c).start op = some (d, 0) := by simp [funRule, hs]
                rw [this]
                rfl

theorem cSamplerRec_obj {g : CGrammar} {c : ObjConstraint} (hc : g.constraints = .obj c) (up : Bool)
    (fuel : ℕ) : cSamplerRec g up fuel = ruleSampler g.toGrammar (objRule g c) up fuel := by
  induction fuel with
  | zero => rfl
  | succ fuel ih =>
    funext A na ds
    simp only [cSamplerRec, ruleSampler, hc, ih]
    split_ifs
    · rfl
    · cases constrainedProbs g.toGrammar up A na with
      | none => rfl
      | some p =>
        simp only
        cases choice ((g.productions A).filter (· ∉ na)).length p ds with
        | none => rfl
        | some r =>
          obtain ⟨i, ds⟩ := r
          simp only
          cases ((g.productions A).filter (· ∉ na))[i]? with
          | none => rfl
          | some prod =>
            simp only
            cases prod.rhs.head? with
            | none => rfl
            | some op =>
              simp only
              cases hs : c.start op with
              | none =>
                have : (objRule g c).start op = none := hs
                rw [this]
              | some d =>
                have : (objRule g c).start op = some d := hs
                rw [this]
                rfl

/-! ## Trees -/

theorem Derives.heads_eq {ok syms f} (h : Derives ok syms f) : f.heads = syms := by
  induction h with
  | nil => rfl
  | leaf _ ih => simp [Forest.heads, ih]
  | node _ _ _ _ ih => simp [Forest.heads, ih]

theorem mem_nodes_iff (f : Forest) (C : Str) (ks : Forest) :
    (C, ks) ∈ f.nodes ↔ ∃ B k, (B, k) ∈ f.items ∧ ((C, ks) = (B, k) ∨ (C, ks) ∈ k.nodes) := by
  induction f with
  | nil => simp [Forest.nodes, Forest.items]
  | leaf s r ih => simpa [Forest.nodes, Forest.items] using ih
  | node A k r _ ih =>
    simp only [Forest.nodes, Forest.items, List.mem_cons, List.cons_append, List.mem_append, ih]
    constructor
    · rintro (h | h | ⟨B, k', h1, h2⟩)
      · exact ⟨A, k, Or.inl rfl, Or.inl h⟩
      · exact ⟨A, k, Or.inl rfl, Or.inr h⟩
      · exact ⟨B, k', Or.inr h1, h2⟩
    · rintro ⟨B, k', h1 | h1, h2⟩
      · obtain ⟨rfl, rfl⟩ := Prod.mk.inj h1
        rcases h2 with h2 | h2
        · exact Or.inl h2
        · exact Or.inr (Or.inl h2)
      · exact Or.inr (Or.inr ⟨B, k', h1, h2⟩)

theorem everyArgument_iff {good : Sym → List Str → Str → Forest → Prop} {A : Str} {kids : Forest} :
    EveryArgument good A kids ↔
      (∃ op, kids.heads.head? = some op ∧
        ∀ j B k, kids.items[j]? = some (B, k) → good op (kids.argTexts j) B k) ∧
      ∀ B k, (B, k) ∈ kids.items → EveryArgument good B k := by
  constructor
  · intro h
    refine ⟨h A kids (Or.inl rfl), fun B k hk C ks hC => h C ks (Or.inr ?_)⟩
    exact (mem_nodes_iff _ _ _).2 ⟨B, k, hk, hC⟩
  · rintro ⟨h1, h2⟩ C ks (hC | hC)
    · obtain ⟨rfl, rfl⟩ := Prod.mk.inj hC
      exact h1
    · obtain ⟨B, k, hk, h⟩ := (mem_nodes_iff _ _ _).1 hC
      exact h2 B k hk C ks h

theorem EveryArgument.mono {good good' : Sym → List Str → Str → Forest → Prop} {A : Str}
    {kids : Forest} (h : EveryArgument good A kids)
    (hg : ∀ op before B k, good op before B k → good' op before B k) :
    EveryArgument good' A kids := by
  intro C ks hC
  obtain ⟨op, h1, h2⟩ := h C ks hC
  exact ⟨op, h1, fun j B k hj => hg _ _ _ _ (h2 j B k hj)⟩

/-! ## What is sampled -/

/-- The argument is possible and its root uses an allowed production. -/
def Rule.Fits (R : Rule) (ok : Str → List Sym → Prop) (op : Sym) (before : List Str) (B : Str)
    (k : Forest) : Prop := R.Permits op before B k ∧ ok B k.heads

/-- What the recursive call returns. -/
def RuleRecOk (ok : Str → List Sym → Prop) (R : Rule)
    (rec : Str → List Production → List ℕ → Option (Str × List ℕ)) : Prop :=
  ∀ A na ds s ds', rec A na ds = some (s, ds') → ∃ kids, s = '(' :: A ++ kids.text ∧
    ok A kids.heads ∧ Derives ok kids.heads kids ∧ ⟨A, kids.heads⟩ ∉ na ∧
    EveryArgument (R.Fits ok) A kids

theorem cexpand_ok {ok : Str → List Sym → Prop} {R : Rule} {rec} (hrec : RuleRecOk ok R rec)
    (op : Sym) (syms : List Sym) : ∀ (tree : Str) (before : List Str) (st : R.State)
      (ds : List ℕ) (s : Str) (ds' : List ℕ), R.At op before = some st →
      cexpand rec (R.na op) R.upd syms tree st ds = some (s, ds') →
      ∃ f : Forest, Derives ok syms f ∧ s = tree ++ f.text ∧
        (∀ j B k, f.items[j]? = some (B, k) → R.Fits ok op (before ++ f.argTexts j) B k) ∧
        ∀ B k, (B, k) ∈ f.items → EveryArgument (R.Fits ok) B k := by
  induction syms with
  | nil =>
    intro tree before st ds s ds' _ h
    simp only [cexpand, Option.some.injEq, Prod.mk.injEq] at h
    obtain ⟨rfl, rfl⟩ := h
    exact ⟨.nil, .nil, by simp [Forest.text], by simp [Forest.items], by simp [Forest.items]⟩
  | cons sym syms ih =>
    intro tree before st ds s ds' hst h
    cases sym with
    | t w =>
      rw [cexpand] at h
      obtain ⟨f, h1, h2, h3, h4⟩ := ih _ before st ds s ds' hst h
      exact ⟨.leaf w f, .leaf h1, by simp [h2, Forest.text], h3, h4⟩
    | nt A =>
      rw [cexpand] at h
      split at h
      · simp at h
      · rename_i na hna
        split at h
        · simp at h
        · rename_i s1 ds1 hr
          split at h
          · simp at h
          · rename_i st' hu
            obtain ⟨kids, rfl, hok, hd, hn, he⟩ := hrec A na ds s1 ds1 hr
            have htt : '(' :: A ++ kids.text ++ [')'] = treeText A kids := rfl
            rw [htt] at hu
            obtain ⟨f, h1, h2, h3, h4⟩ := ih _ (before ++ [treeText A kids]) st' ds1 s ds'
              (Rule.At_append hst hu) h
            refine ⟨.node A kids f, .node hok hd h1, by simp [h2, Forest.text], ?_, ?_⟩
            · intro j B k hj
              cases j with
              | zero =>
                simp only [Forest.items, List.getElem?_cons_zero, Option.some.injEq,
                  Prod.mk.injEq] at hj
                obtain ⟨rfl, rfl⟩ := hj
                exact ⟨⟨st, na, st', by simpa [Forest.argTexts] using hst, hna, hn, hu⟩, hok⟩
              | succ j =>
                have := h3 j B k (by simpa [Forest.items] using hj)
                simpa [Forest.argTexts, Forest.items] using this
            · intro B k hk
              rcases List.mem_cons.1 hk with e | hk
              · obtain ⟨rfl, rfl⟩ := Prod.mk.inj e
                exact he
              · exact h4 B k hk

theorem ruleSampler_ok {g : Grammar} {R : Rule} {up : Bool} {ok : Str → List Sym → Prop}
    (hok : ∀ A na p ds i ds' prod, constrainedProbs g up A na = some p →
      choice ((g.productions A).filter (· ∉ na)).length p ds = some (i, ds') →
      ((g.productions A).filter (· ∉ na))[i]? = some prod → ok A prod.rhs) (fuel : ℕ) :
    RuleRecOk ok R (ruleSampler g R up fuel) := by
  induction fuel with
  | zero => intro A na ds s ds' h; simp [ruleSampler] at h
  | succ fuel ih =>
    intro A na ds s ds' h
    simp only [ruleSampler] at h
    split_ifs at h with h0
    split at h
    · simp at h
    rename_i p hp
    split at h
    · simp at h
    rename_i i ds1 hch
    split at h
    · simp at h
    rename_i prod hprod
    split at h
    · simp at h
    rename_i op hop
    split at h
    · simp at h
    rename_i st hst
    obtain ⟨f, h1, h2, h3, h4⟩ := cexpand_ok ih op _ _ [] st ds1 s ds' (by simp [Rule.At, hst]) h
    have hm := List.mem_filter.1 (List.mem_of_getElem? hprod)
    have hl : prod.lhs = A := by
      have := hm.1
      unfold Grammar.productions at this
      simpa using (List.mem_filter.1 this).2
    have hh := h1.heads_eq
    refine ⟨f, h2, ?_, by rw [hh]; exact h1, ?_, ?_⟩
    · rw [hh]; exact hok A na p ds i ds1 prod hp hch hprod
    · rw [hh, ← hl]
      simpa using hm.2
    · rw [everyArgument_iff]
      exact ⟨⟨op, by rw [hh]; exact hop, fun j B k hj => by simpa using h3 j B k hj⟩, h4⟩

/-! ## Every permitted tree can be sampled -/

theorem ruleSampler_complete {g : Grammar} {R : Rule} (hstart : ∀ op, ∃ st, R.start op = some st)
    (fuel : ℕ) : ∀ (A : Str) (kids : Forest)
    (na : List Production), g.Legal A kids.heads → Derives g.Legal kids.heads kids →
      ⟨A, kids.heads⟩ ∉ na → EveryArgument R.Permits A kids → kids.depth < fuel →
      ∃ ds₀, ∀ ds, ruleSampler g R false fuel A na (ds₀ ++ ds) =
        some ('(' :: A ++ kids.text, ds) := by
  induction fuel with
  | zero => intro A kids na _ _ _ _ h; omega
  | succ fuel ih =>
    have hexp : ∀ (op : Sym) (syms : List Sym) (f : Forest) (tree : Str) (before : List Str)
        (st : R.State), Derives g.Legal syms f → f.depth ≤ fuel → R.At op before = some st →
        (∀ j B k, f.items[j]? = some (B, k) → R.Permits op (before ++ f.argTexts j) B k) →
        (∀ B k, (B, k) ∈ f.items → EveryArgument R.Permits B k) →
        ∃ ds₀, ∀ ds, cexpand (ruleSampler g R false fuel) (R.na op) R.upd syms tree st (ds₀ ++ ds) =
          some (tree ++ f.text, ds) := by
      intro op syms
      induction syms with
      | nil =>
        intro f tree before st hd _ _ _ _
        cases hd
        exact ⟨[], by simp [cexpand, Forest.text]⟩
      | cons sym syms ihs =>
        intro f tree before st hd hdep hst hp he
        cases hd with
        | leaf hd =>
          rename_i w f
          obtain ⟨ds₀, h⟩ := ihs f (tree ++ [' '] ++ w) before st hd
            (by simpa [Forest.depth] using hdep) hst hp he
          exact ⟨ds₀, fun ds => by rw [cexpand, h]; simp [Forest.text]⟩
        | node ho hk hr =>
          rename_i A rhs kids f
          simp only [Forest.depth, max_le_iff] at hdep
          obtain ⟨st1, na, st', hst1, hna, hn, hu⟩ := hp 0 A kids (by simp [Forest.items])
          have e : before ++ (Forest.node A kids f).argTexts 0 = before := by simp [Forest.argTexts]
          rw [e, hst] at hst1
          obtain rfl := Option.some.inj hst1
          have hh := hk.heads_eq
          obtain ⟨ds₁, h1⟩ := ih A kids na (by rw [hh]; exact ho) (by rw [hh]; exact hk) hn
            (he A kids (by simp [Forest.items])) (by omega)
          obtain ⟨ds₂, h2⟩ := ihs f (tree ++ [' '] ++ ('(' :: A ++ kids.text) ++ [')'])
            (before ++ [treeText A kids]) st' hr hdep.2 (Rule.At_append hst hu)
            (fun j B k hj => by
              have := hp (j + 1) B k (by simpa [Forest.items] using hj)
              simpa [Forest.argTexts, Forest.items] using this)
            (fun B k hk => he B k (by simp [Forest.items, hk]))
          refine ⟨ds₁ ++ ds₂, fun ds => ?_⟩
          rw [cexpand]
          simp only [hna, List.append_assoc, h1]
          have hu' : R.upd st ('(' :: A ++ (kids.text ++ [')'])) = some st' := by
            simpa [treeText] using hu
          rw [hu']
          simp only
          have := h2 ds
          simp only [List.append_assoc] at this
          rw [this]
          simp [Forest.text]
    intro A kids na hl hd hn he hdep
    rw [everyArgument_iff] at he
    obtain ⟨⟨op, hop, hp⟩, he⟩ := he
    have hm : (⟨A, kids.heads⟩ : Production) ∈ (g.productions A).filter (· ∉ na) := by
      rw [List.mem_filter]
      refine ⟨?_, by simpa using hn⟩
      unfold Grammar.productions
      rw [List.mem_filter]
      exact ⟨hl, by simp⟩
    obtain ⟨i, hi⟩ := List.mem_iff_getElem?.1 hm
    have hlt := (List.getElem?_eq_some_iff.1 hi).1
    obtain ⟨st, hst⟩ := hstart op
    obtain ⟨ds₀, h⟩ := hexp op kids.heads kids ('(' :: A) [] st hd (by omega)
      (by simp [Rule.At, hst]) (fun j B k hj => by simpa using hp j B k hj) he
    refine ⟨i :: ds₀, fun ds => ?_⟩
    rw [ruleSampler]
    have h0 : ¬ ((g.productions A).filter (· ∉ na)).length = 0 := by omega
    simp only [h0, if_false, constrainedProbs, Bool.false_eq_true, List.cons_append, choice, hlt,
      if_true, hi, hop, hst]
    rw [h]; rfl

end Verif.Gram
