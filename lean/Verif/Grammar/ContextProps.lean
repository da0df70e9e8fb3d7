import Verif.Grammar.ContextPlace
import Verif.Grammar.Props

/-!
# Mutation in constrained grammars (C114)
-/

namespace Verif.Gram

/-- Texts that differ in closing brackets at the end. -/
abbrev MoreClosing (t t' : Str) : Prop := ∃ n, t' = t ++ List.replicate n ')'

theorem moreClosing_of_upTo {args : List (Option Str)} {ts : List Str}
    (h : List.Forall₂ UpToClosing args ts) :
    ∃ ts', args = ts'.map some ∧ List.Forall₂ MoreClosing ts ts' := by
  induction h with
  | nil => exact ⟨[], rfl, .nil⟩
  | cons h _ ih =>
    obtain ⟨m, rfl⟩ := h
    obtain ⟨ts', rfl, h2⟩ := ih
    exact ⟨_ :: ts', rfl, .cons ⟨m, rfl⟩ h2⟩

theorem ChangesArgument.mono {good good' : Str → List Str → Str → Forest → Forest → List Str → Prop}
    (hg : ∀ o b A k k' a, good o b A k k' a → good' o b A k k' a) {f f' : Forest}
    (h : ChangesArgument good f f') : ChangesArgument good' f f' := by
  induction h with
  | here h => exact .here (hg _ _ _ _ _ _ h)
  | deeper _ ih => exact .deeper ih

/-- A token that names a nonterminal with several productions is a node of the tree. -/
theorem tree_at {g : Grammar} (hg : g.Clean) {root A : Str} {kids : Forest}
    (hl : g.Legal root kids.heads) (hd : Derives g.Legal kids.heads kids) {i : ℕ} {c : Char}
    (hA : A ∈ g.swappable) (hi : (splitSp (treeText root kids))[i]? = some (c :: A)) :
    ∃ k u v F, At A k (.node root kids .nil) u v F ∧ i = u.count ' ' := by
  obtain ⟨p, hp, rfl⟩ := swappable_lhs hA
  have hpl := hg.lhs p hp
  have hD : Derives g.Legal [.nt root] (.node root kids .nil) := .node hl hd .nil
  have hplain := hD.plain hg.lhs hg.rhs (by simp)
  have hnl := hD.noLeaf hg c p.lhs hA (by simp)
  have e : (Forest.node root kids .nil).text = ' ' :: treeText root kids := by
    simp [Forest.text, treeText]
  have hi1 : (splitSp ((Forest.node root kids .nil).text ++ []))[i + 1]? = some (c :: p.lhs) := by
    rw [List.append_nil, e, splitSp_space]; simpa using hi
  have hi2 : i + 1 ≤ (Forest.node root kids .nil).text.count ' ' := by
    have := (List.getElem?_eq_some_iff.1 hi).1
    rw [length_splitSp] at this
    rw [e]; simp; omega
  obtain ⟨k, u, v, F, hat, hne, hu⟩ :=
    locate p.lhs c hpl.2.2.1 hpl.2.2.2 _ [] (i + 1) hplain hnl closes_nil (by omega) hi2 hi1
  exact ⟨k, u, v, F, hat, by omega⟩

/-- An argument of an operation in a tree: the text before and after it. -/
structure ArgPlace (root : Str) (kids : Forest) (P o A : Str)
    (before k after : Forest) (u v : Str) (F : Forest → Forest) where
  pre : Str
  post : Str
  at' : At P (.leaf o (before.append (.node A k after))) (.node root kids .nil) u v F
  hpre : ' ' :: pre = u ++ ' ' :: '(' :: P ++ ' ' :: o ++ before.text ++ [' ']
  hpost : post = after.text ++ ')' :: v

theorem node_append {root : Str} {kids pre k r : Forest} {B : Str}
    (h : Forest.node root kids .nil = pre.append (.node B k r)) :
    pre = .nil ∧ B = root ∧ k = kids ∧ r = .nil := by
  cases pre with
  | nil =>
    simp only [Forest.append, Forest.node.injEq] at h
    exact ⟨rfl, h.1.symm, h.2.1.symm, h.2.2.symm⟩
  | leaf s f => simp [Forest.append] at h
  | node C c f =>
    simp only [Forest.append, Forest.node.injEq] at h
    have := h.2.2
    cases f <;> simp [Forest.append] at this

theorem plain_append {A : Str} {k after : Forest} (before : Forest)
    (h : (before.append (.node A k after)).Plain) : k.Plain ∧ ' ' ∉ A := by
  induction before with
  | nil => exact ⟨h.2.1, h.1.1⟩
  | leaf s r ih => exact ih h.2
  | node B k' r _ ih => exact ih h.2.2

theorem argPlace {P o A : Str} {before k after root kids} {u v : Str} {F : Forest → Forest}
    (h : At P (.leaf o (before.append (.node A k after))) (.node root kids .nil) u v F) :
    Nonempty (ArgPlace root kids P o A before k after u v F) := by
  cases u with
  | nil => exact ⟨⟨'(' :: P ++ ' ' :: o ++ before.text ++ [' '], _, h, by simp, rfl⟩⟩
  | cons x u =>
    have hx : x = ' ' := by
      cases h with
      | down => rfl
      | next _ _ h => cases h
    subst hx
    exact ⟨⟨u ++ ' ' :: '(' :: P ++ ' ' :: o ++ before.text ++ [' '], _, h, by simp,
      rfl⟩⟩

namespace ArgPlace

variable {root P o A : Str} {kids before k after : Forest} {u v : Str} {F : Forest → Forest}

/-- The tree with another argument. -/
theorem other (p : ArgPlace root kids P o A before k after u v F) (k' : Forest) :
    ∃ kids', F (.leaf o (before.append (.node A k' after))) = .node root kids' .nil ∧
      treeText root kids' = p.pre ++ treeText A k' ++ p.post := by
  obtain ⟨pre, post, h, hpre, hpost⟩ := p
  simp only
  have ht := h.text (.leaf o (before.append (.node A k' after)))
  have hF : ∀ x, ∃ kids', F x = .node root kids' .nil := by
    intro x
    cases h with
    | here => exact ⟨_, rfl⟩
    | down => exact ⟨_, rfl⟩
    | next _ _ h => cases h
  obtain ⟨kids', hk⟩ := hF (.leaf o (before.append (.node A k' after)))
  refine ⟨kids', hk, ?_⟩
  rw [hk] at ht
  have e : (Forest.node root kids' .nil).text = ' ' :: treeText root kids' := by
    simp [Forest.text, treeText]
  rw [e] at ht
  have e2 : ' ' :: treeText root kids' = ' ' :: (pre ++ treeText A k' ++ post) := by
    rw [ht]
    have : ' ' :: (pre ++ treeText A k' ++ post) = (' ' :: pre) ++ treeText A k' ++ post := by simp
    rw [this, hpre, hpost]
    simp [treeText, Forest.text, append_text]
  exact (List.cons.inj e2).2

theorem text (p : ArgPlace root kids P o A before k after u v F) :
    treeText root kids = p.pre ++ treeText A k ++ p.post := by
  obtain ⟨kids', h1, h2⟩ := p.other k
  rw [p.at'.self] at h1
  simp only [Forest.node.injEq] at h1
  have e := h1.2.1
  rw [← e] at h2
  exact h2

theorem removed (p : ArgPlace root kids P o A before k after u v F)
    (hf : (Forest.node root kids .nil).Plain) (hk : k ≠ .nil) :
    removeSubtree (treeText root kids) (p.pre.count ' ') =
      some (p.pre, treeText A k, p.post) := by
  have h := (p.at'.plain hf).1
  obtain ⟨pre, post, hat, hpre, hpost⟩ := p
  have hkp : k.Plain ∧ ' ' ∉ A := by
    exact plain_append before h.2
  have e := text ⟨pre, post, hat, hpre, hpost⟩
  simp only at e ⊢
  obtain ⟨w, rfl⟩ : ∃ w, pre = w ++ [' '] := by
    cases u with
    | nil =>
      simp only [List.nil_append, List.cons_append, List.cons.injEq, true_and] at hpre
      exact ⟨'(' :: P ++ ' ' :: o ++ before.text, by rw [hpre]; simp⟩
    | cons x u =>
      simp only [List.cons_append, List.cons.injEq] at hpre
      exact ⟨u ++ ' ' :: '(' :: P ++ ' ' :: o ++ before.text, by rw [hpre.2]⟩
  have := removeSubtree_mid w post A k hkp.1 hkp.2 hk
  rw [e]
  rw [show (w ++ [' ']).count ' ' = w.count ' ' + 1 by simp]
  simpa using this

theorem pre_ne (p : ArgPlace root kids P o A before k after u v F) : p.pre ≠ [' '] := by
  obtain ⟨pre, post, hat, hpre, hpost⟩ := p
  rintro h
  have h : pre = [' '] := h
  subst h
  have h1 : '(' ∈ ([' ', ' '] : Str) := by rw [hpre]; simp
  exact absurd h1 (by decide)

theorem post_ne (p : ArgPlace root kids P o A before k after u v F) : p.post ≠ [] := by
  obtain ⟨pre, post, hat, hpre, hpost⟩ := p
  rintro h
  have h : post = [] := h
  subst h
  simp at hpost

/-- What the constraint function says about the place. -/
theorem notAllowed (p : ArgPlace root kids P o A before k after u v F) {g : CGrammar}
    {c : FunConstraint} (hg : g.Tidy c) (hD : Derives g.Legal [.nt root] (.node root kids .nil))
    (hn : NamesApart root kids) :
    ∃ after', List.Forall₂ MoreClosing after.texts after' ∧ ∀ na,
      contextNotAllowed g c p.pre p.post A = some na ↔
        ∃ b, c.Answers o before.texts after' b ∧ na = notAllowedProds g.noneOp (g.productions A) b := by
  have hocc : ∀ a b, o ++ before.text ++ [' '] ≠ a ++ P ++ b := by
    intro a b he
    have hm : (P, Forest.leaf o (before.append (.node A k after))) = (root, kids) ∨
        (P, Forest.leaf o (before.append (.node A k after))) ∈ kids.nodes := by
      have := p.at'.mem_nodes
      simpa [Forest.nodes] using this
    refine hn _ _ hm ⟨' ' :: a, b ++ treeText A k ++ after.text, ?_⟩
    have : ' ' :: a ++ P ++ (b ++ treeText A k ++ after.text) =
        ' ' :: (a ++ P ++ b) ++ (treeText A k ++ after.text) := by simp
    rw [this, ← he]
    simp [Forest.text, append_text, treeText]
  obtain ⟨args, h1, h2⟩ := computeContext_ok hg hD p.at' hocc p.pre p.post p.hpre p.hpost
  obtain ⟨after', rfl, h3⟩ := moreClosing_of_upTo h2
  refine ⟨after', h3, fun na => ?_⟩
  have hidx : (before.texts.map some ++ none :: after'.map some).findIdx? (· = none) =
      some before.texts.length := by
    generalize before.texts = l
    induction l with
    | nil => simp [List.findIdx?_cons]
    | cons x l ih =>
      simp only [List.map_cons, List.cons_append, List.findIdx?_cons]
      simp [ih]
  unfold contextNotAllowed
  rw [h1]
  simp only
  unfold FunConstraint.Answers
  cases hask : c.ask (.t o) (before.texts.map some ++ none :: after'.map some) with
  | none => simp
  | some ans =>
    cases ans with
    | bool b =>
      simp only [Option.some.injEq, Answer.bool.injEq, reduceCtorEq, false_and, exists_false,
        or_false]
      constructor
      · rintro rfl; exact ⟨b, rfl, rfl⟩
      · rintro ⟨_, rfl, rfl⟩; rfl
    | list l =>
      simp only [Option.some.injEq, Answer.list.injEq, reduceCtorEq, false_or, hidx,
        Option.map_eq_some_iff]
      constructor
      · rintro ⟨b, h, rfl⟩; exact ⟨b, ⟨l, rfl, h⟩, rfl⟩
      · rintro ⟨b, ⟨_, rfl, h⟩, rfl⟩; exact ⟨b, h, rfl⟩

end ArgPlace

theorem cMutateLoop_ok {g : CGrammar} {fuel : ℕ} {parent pre post node : Str}
    {na : List Production} (n : ℕ) : ∀ {child? ds child ds'},
      cMutateLoop g fuel parent pre post node na n child? ds = some (child, ds') →
      (∀ x, child? = some x → ∃ new d d', cSampler g fuel 1 (some node) na false d =
        some ([new], d') ∧ x = pre ++ new ++ post) →
      ∃ new d d', cSampler g fuel 1 (some node) na false d = some ([new], d') ∧
        child = strip (pre ++ new ++ post) := by
  induction n with
  | zero =>
    intro child? ds child ds' h hc
    simp only [cMutateLoop, Option.map_eq_some_iff, Prod.mk.injEq] at h
    obtain ⟨x, hx, rfl, _⟩ := h
    obtain ⟨new, d, d', h1, rfl⟩ := hc x hx
    exact ⟨new, d, d', h1, rfl⟩
  | succ n ih =>
    intro child? ds child ds' h hc
    simp only [cMutateLoop] at h
    split at h
    · rename_i new d1 h1
      split_ifs at h
      · simp only [Option.some.injEq, Prod.mk.injEq] at h
        exact ⟨new, _, _, h1, h.1.symm⟩
      · simp only [Option.some.injEq, Prod.mk.injEq] at h
        exact ⟨new, _, _, h1, h.1.symm⟩
      · refine ih h ?_
        intro x hx
        obtain rfl := Option.some.inj hx
        exact ⟨new, _, _, h1, rfl⟩
    · simp at h

/-- A token other than the first that names a nonterminal with several productions is an argument of
an operation. -/
theorem arg_of_token {g : CGrammar} {c : FunConstraint} (hg : g.Tidy c) {root : Str} {kids : Forest}
    (hl : g.Legal root kids.heads) (hd : Derives g.Legal kids.heads kids) {i : ℕ} {ch : Char}
    {A : Str} (hA : A ∈ g.swappable) (hi : (splitSp (treeText root kids))[i]? = some (ch :: A))
    (h0 : i ≠ 0) :
    ∃ (P o : Str) (before k after : Forest) (u v : Str) (F : Forest → Forest)
      (p : ArgPlace root kids P o A before k after u v F),
      removeSubtree (treeText root kids) i = some (p.pre, treeText A k, p.post) ∧
      g.Legal A k.heads ∧ Derives g.Legal k.heads k ∧ (A, k) ∈ kids.nodes ∧
      ∀ k', g.Legal A k'.heads → Derives g.Legal k'.heads k' → ∃ kids',
        strip (p.pre ++ treeText A k' ++ p.post) = treeText root kids' ∧ g.Legal root kids'.heads ∧
        Derives g.Legal kids'.heads kids' ∧
        ∀ good : Str → List Str → Str → Forest → Forest → List Str → Prop,
          good o before.texts A k k' after.texts → ChangesArgument good kids kids' := by
  have hD : Derives g.Legal [.nt root] (.node root kids .nil) := .node hl hd .nil
  have hplain := hD.plain hg.clean.lhs hg.clean.rhs (by simp)
  have hsolid := hD.solid hg (by simp)
  obtain ⟨k, u, v, F, hat, hiu⟩ := tree_at hg.clean hl hd hA hi
  have hkne := (hat.solid hsolid).2.1
  obtain ⟨rhsA, hlA, hdA, hswA⟩ := hat.derives hD
  have hmem : (A, k) ∈ kids.nodes := by
    cases hat with
    | here => simp at hiu; exact absurd hiu h0
    | down _ _ h => exact h.mem_nodes
    | next _ _ h => cases h
  rcases hat.parent with ⟨before, after, h1, h2, h3, h4⟩ | ⟨P, before, after, u', v', F', h1, h2, h3, h4⟩
  · obtain ⟨rfl, rfl, rfl, rfl⟩ := node_append h1
    simp only [Forest.text] at h2
    subst h2
    exact absurd (by simpa using hiu) h0
  · obtain ⟨rhsP, hlP, hdP, -⟩ := h1.derives hD
    have hhP := hdP.heads_eq
    obtain ⟨o, rest, e⟩ := hg.operation _ hlP
    simp only at e
    rw [e] at hhP
    obtain ⟨b, rfl⟩ : ∃ b, before = .leaf o b := by
      cases before with
      | nil => simp [Forest.append, Forest.heads] at hhP
      | leaf s b =>
        simp only [Forest.append, Forest.heads, List.cons.injEq, Sym.t.injEq] at hhP
        exact ⟨b, by rw [hhP.1]⟩
      | node => simp [Forest.append, Forest.heads] at hhP
    have h1' : At P (.leaf o (b.append (.node A k after))) (.node root kids .nil) u' v' F' := h1
    obtain ⟨p⟩ := argPlace h1'
    have hpi : p.pre.count ' ' = i := by
      have e1 : ' ' :: p.pre = u ++ [' '] := by
        rw [p.hpre, h2]; simp [Forest.text]
      have e2 := congrArg (List.count ' ') e1
      simp only [List.count_cons_self, List.count_append, List.count_nil] at e2
      omega
    refine ⟨P, o, b, k, after, u', v', F', p, hpi ▸ p.removed hplain hkne, hdA.heads_eq ▸ hlA,
      hdA.heads_eq ▸ hdA, hmem, fun k' a1 a2 => ?_⟩
    obtain ⟨kids', hF, ht⟩ := p.other k'
    have hD' := hswA _ k' a1 a2
    have hFk : F k' = .node root kids' .nil := by rw [h4]; exact hF
    rw [hFk] at hD'
    have hL : g.Legal root kids'.heads ∧ Derives g.Legal kids'.heads kids' := by
      cases hD' with
      | node ho hk hr =>
        rw [hk.heads_eq]
        exact ⟨ho, hk⟩
    refine ⟨kids', ?_, hL.1, hL.2, fun good hgood => ?_⟩
    · rw [← ht]
      exact (IsTree.strip (g := g.toGrammar) ⟨_, kids', hL.1, hL.2, rfl⟩).1
    · obtain ⟨pre, B, x, x', r, e1, e2, e3⟩ := h1'.changes (.here hgood)
      obtain ⟨rfl, rfl, rfl, rfl⟩ := node_append e1
      rw [hF] at e2
      simp only [Forest.append, Forest.node.injEq] at e2
      rw [e2.2.1]
      exact e3

theorem not_mem_notAllowed {g : CGrammar} {A : Str} {k : Forest} {b : Bool}
    (hl : g.Legal A k.heads) (h : ⟨A, k.heads⟩ ∉ notAllowedProds g.noneOp (g.productions A) b)
    (hb : b = false) (s : Str) (hs : g.noneOp = some s) : k.heads ≠ [.t s] := by
  intro he
  refine h (mem_notAllowedProds.2 ⟨?_, hb, s, hs, he⟩)
  unfold Grammar.productions
  rw [List.mem_filter]
  exact ⟨hl, by simp⟩

/-- **C114**, in part: when an architecture is mutated, either at its root, where a new one is
sampled, or one argument of one operation is replaced by a tree whose operations satisfy the
constraint, and which is not the none operation if the constraint function, told the other
arguments, says no.  Missing: the texts of the arguments after it that the function is told may have
additional closing brackets (see `C114_brackets_fails`), operations in which the name of the
nonterminal occurs again are left out (see `C114_context_fails`), and the constraint of the
arguments after it is not looked at again (see `C114_later_fails`). -/
theorem C114_mutate_partial (g : CGrammar) (c : FunConstraint) (hc : g.constraints = .fn c)
    (hg : g.Tidy c) (root : Str) (kids : Forest) (hl : g.Legal root kids.heads)
    (hd : Derives g.Legal kids.heads kids) (hn : NamesApart root kids) (fuel : ℕ) (i : ℕ) (ch : Char)
    (A : Str) (hA : A ∈ g.swappable) (hi : (splitSp (treeText root kids))[i]? = some (ch :: A))
    (patience : ℕ) (ds ds' : List ℕ) (child : Str)
    (h : cMutate g c fuel (treeText root kids) i A patience ds = some (child, ds')) :
    ∃ kids', child = treeText root kids' ∧ g.Legal root kids'.heads ∧
      Derives g.Legal kids'.heads kids' ∧
      ((i = 0 ∧ EveryArgument (c.Permits g.noneOp) root kids') ∨
        ChangesArgument (fun op before B k k' after => ∃ after',
          List.Forall₂ MoreClosing after after' ∧ GoodArgument g c op before B k k' after')
            kids kids') := by
  have hD : Derives g.Legal [.nt root] (.node root kids .nil) := .node hl hd .nil
  have hplain := hD.plain hg.clean.lhs hg.clean.rhs (by simp)
  have hsolid := hD.solid hg (by simp)
  have hsample : ∀ na new d d', cSampler g fuel 1 (some A) na false d = some ([new], d') →
      ∃ k', new = treeText A k' ∧ g.Legal A k'.heads ∧ Derives g.Legal k'.heads k' ∧
        ⟨A, k'.heads⟩ ∉ na ∧ EveryArgument (c.Permits g.noneOp) A k' := by
    intro na new d d' hs
    exact (C113_function g c hc fuel 1 (some A) na false d d' [new] hs).2 new (by simp)
  by_cases h0 : i = 0
  · subst h0
    obtain ⟨k, u, v, F, hat, hiu⟩ := tree_at hg.clean hl hd hA hi
    have hkne := (hat.solid hsolid).2.1
    cases hat with
    | down => simp at hiu
    | next _ _ h => cases h
    | here =>
      unfold cMutate at h
      have hrem := removeSubtree_root [] root kids (hplain.2.1) hplain.1.1 hkne
      rw [List.append_nil] at hrem
      rw [hrem] at h
      simp only [ne_eq, not_true_eq_false, false_and, if_false] at h
      obtain ⟨new, d, d', hs, rfl⟩ := cMutateLoop_ok patience h (by simp)
      obtain ⟨k', rfl, a1, a2, _, a4⟩ := hsample _ _ _ _ hs
      refine ⟨k', ?_, a1, a2, Or.inl ⟨rfl, a4⟩⟩
      have := (IsTree.strip (g := g.toGrammar) (A := root) (s := treeText root k')
        ⟨_, k', a1, a2, rfl⟩).2
      simpa using this
  · obtain ⟨P, o, before, k, after, u, v, F, p, hrem, _, _, _, hsw⟩ :=
      arg_of_token hg hl hd hA hi h0
    unfold cMutate at h
    rw [hrem] at h
    simp only at h
    rw [if_pos ⟨p.pre_ne, p.post_ne⟩] at h
    obtain ⟨after', ha, hna⟩ := p.notAllowed hg hD hn
    split at h
    · simp at h
    rename_i na hna'
    obtain ⟨bb, hb, rfl⟩ := (hna na).1 hna'
    obtain ⟨new, d, d', hs, rfl⟩ := cMutateLoop_ok patience h (by simp)
    obtain ⟨k', rfl, a1, a2, a3, a4⟩ := hsample _ _ _ _ hs
    obtain ⟨kids', ht, b1, b2, b3⟩ := hsw k' a1 a2
    exact ⟨kids', ht, b1, b2, Or.inr (b3 _ ⟨after', ha, a1, a2, a4, bb, hb,
      not_mem_notAllowed a1 a3⟩)⟩

/-- **C114**, in part, for constraint functions that do not mind the additional brackets: one argument
of one operation is replaced by a tree whose operations satisfy the constraint, and which is not the
none operation if the constraint function, told the other arguments, says no. -/
theorem C114_lenient_partial (g : CGrammar) (c : FunConstraint) (hc : g.constraints = .fn c)
    (hg : g.Tidy c) (hlen : c.Lenient) (root : Str) (kids : Forest) (hl : g.Legal root kids.heads)
    (hd : Derives g.Legal kids.heads kids) (hn : NamesApart root kids) (fuel : ℕ) (i : ℕ) (ch : Char)
    (A : Str) (hA : A ∈ g.swappable) (hi : (splitSp (treeText root kids))[i]? = some (ch :: A))
    (h0 : i ≠ 0) (patience : ℕ) (ds ds' : List ℕ) (child : Str)
    (h : cMutate g c fuel (treeText root kids) i A patience ds = some (child, ds')) :
    ∃ kids', child = treeText root kids' ∧ g.Legal root kids'.heads ∧
      Derives g.Legal kids'.heads kids' ∧ ChangesArgument (GoodArgument g c) kids kids' := by
  obtain ⟨kids', h1, h2, h3, h4⟩ := C114_mutate_partial g c hc hg root kids hl hd hn fuel i ch A hA hi
    patience ds ds' child h
  refine ⟨kids', h1, h2, h3, ?_⟩
  rcases h4 with ⟨h4, _⟩ | h4
  · exact absurd h4 h0
  refine h4.mono ?_
  rintro o b B k k' a ⟨a', ha, x1, x2, x3, bb, x4, x5⟩
  refine ⟨x1, x2, x3, bb, ?_, x5⟩
  unfold FunConstraint.Answers at x4 ⊢
  rw [hlen _ _ _ _ ha]
  exact x4

theorem append_at {P : Str} {ks : Forest} (f : Forest) {f' : Forest} {u v : Str}
    {F : Forest → Forest} (h : At P ks f' u v F) :
    ∃ u', At P ks (f.append f') u' v (fun x => f.append (F x)) := by
  induction f with
  | nil => exact ⟨u, h⟩
  | leaf s r ih =>
    obtain ⟨u', h'⟩ := ih
    exact ⟨_, .leaf s h'⟩
  | node B k r _ ih =>
    obtain ⟨u', h'⟩ := ih
    exact ⟨_, .next B k h'⟩

theorem ChangesArgument.at {good : Str → List Str → Str → Forest → Forest → List Str → Prop} {f f' : Forest}
    (h : ChangesArgument good f f') : ∃ (o A : Str) (before k k' after : Forest),
      good o before.texts A k k' after.texts ∧ ∀ B r, ∃ P u v F,
        At P (.leaf o (before.append (.node A k after))) (.node B f r) u v F ∧
          F (.leaf o (before.append (.node A k' after))) = .node B f' r := by
  induction h with
  | here h => exact ⟨_, _, _, _, _, _, h, fun B r => ⟨B, _, _, _, .here r, rfl⟩⟩
  | deeper _ ih =>
    rename_i C f k k' r _
    obtain ⟨o, A, b, x, x', a, h1, h2⟩ := ih
    refine ⟨o, A, b, x, x', a, h1, fun B r' => ?_⟩
    obtain ⟨P, u, v, F, h3, h4⟩ := h2 C r
    obtain ⟨u', h5⟩ := append_at f h3
    exact ⟨P, _, _, _, .down B r' h5, by simp only [h4]⟩

/-- **C114**, in part, the other direction: every change of an argument that the constraint function
allows can be the result of a mutation. -/
theorem C114_complete_partial (g : CGrammar) (c : FunConstraint) (hc : g.constraints = .fn c)
    (hg : g.Tidy c) (hlen : c.Lenient) (hstart : ∀ op, (c.start op).isSome) (root : Str)
    (kids kids' : Forest) (hl : g.Legal root kids.heads) (hd : Derives g.Legal kids.heads kids)
    (hn : NamesApart root kids) (hch : ChangesArgument (GoodArgument g c) kids kids')
    (hne : treeText root kids' ≠ treeText root kids) (patience : ℕ) :
    ∃ fuel i A ds, (splitSp (treeText root kids))[i]? = some ('(' :: A) ∧
      cMutate g c fuel (treeText root kids) i A (patience + 1) ds =
        some (treeText root kids', []) := by
  have hD : Derives g.Legal [.nt root] (.node root kids .nil) := .node hl hd .nil
  have hplain := hD.plain hg.clean.lhs hg.clean.rhs (by simp)
  have hsolid := hD.solid hg (by simp)
  obtain ⟨o, A, before, k, k', after, ⟨a1, a2, a3, b, a4, a5⟩, hat⟩ := hch.at
  obtain ⟨P, u, v, F, hat, hF⟩ := hat root .nil
  obtain ⟨p⟩ := argPlace hat
  have hks := (hat.solid hsolid).1
  have hkne : k ≠ .nil := ((solid_append before _).1 hks.2.2.2).2.2.2.2.1
  obtain ⟨after', ha, hna⟩ := p.notAllowed hg hD hn
  have a4' : c.Answers o before.texts after' b := by
    unfold FunConstraint.Answers at a4 ⊢
    rw [← hlen _ _ _ _ ha]
    exact a4
  have hna' := (hna _).2 ⟨b, a4', rfl⟩
  have hnot : (⟨A, k'.heads⟩ : Production) ∉ notAllowedProds g.noneOp (g.productions A) b := by
    intro hm
    obtain ⟨_, h1, s, h2, h3⟩ := mem_notAllowedProds.1 hm
    exact a5 h1 s h2 h3
  obtain ⟨fuel, ds, hs⟩ := C113_function_complete g c hc hstart A k' _ a1 a2 hnot a3
  obtain ⟨kids2, hF2, ht⟩ := p.other k'
  rw [hF] at hF2
  simp only [Forest.node.injEq, true_and, and_true] at hF2
  subst hF2
  refine ⟨fuel, p.pre.count ' ', A, ds, ?_, ?_⟩
  · obtain ⟨w, hw⟩ : ∃ w, p.pre = w ++ [' '] := by
      have := p.hpre
      cases u with
      | nil =>
        simp only [List.nil_append, List.cons_append, List.cons.injEq, true_and] at this
        exact ⟨'(' :: P ++ ' ' :: o ++ before.text, by rw [this]; simp⟩
      | cons x u =>
        simp only [List.cons_append, List.cons.injEq] at this
        exact ⟨u ++ ' ' :: '(' :: P ++ ' ' :: o ++ before.text, by rw [this.2]⟩
    have hkp : k.Plain ∧ ' ' ∉ A := by
      exact plain_append before ((hat.plain hplain).1).2
    obtain ⟨r, hr, -, -⟩ := remove_right A k hkp.1 hkp.2 hkne p.post
    have e : treeText root kids = w ++ ' ' :: (treeText A k ++ p.post) := by
      rw [p.text, hw]; simp
    rw [e, splitSp_append_space, hr, hw, List.count_append, List.count_singleton]
    have := length_splitSp w
    rw [List.getElem?_append_right (by simp; omega)]
    simp [this]
  · unfold cMutate
    rw [p.removed hplain hkne]
    simp only
    rw [if_pos ⟨p.pre_ne, p.post_ne⟩, hna']
    simp only [cMutateLoop, hs]
    rw [if_pos (by rw [← ht]; exact fun h => hne h.symm), ← ht]
    have hD' := (hat.derives hD)
    obtain ⟨rhsP, hP1, hP2, hP3⟩ := hD'
    have hin : Derives g.Legal rhsP (.leaf o (before.append (.node A k' after))) := by
      have key : ∀ (f : Forest) (syms : List Sym), Derives g.Legal syms (f.append (.node A k after)) →
          Derives g.Legal syms (f.append (.node A k' after)) := by
        intro f
        induction f with
        | nil =>
          intro syms h
          cases h with
          | node h1 h2 h3 => exact .node a1 a2 h3
        | leaf s r ih =>
          intro syms h
          cases h with
          | leaf h => exact .leaf (ih _ h)
        | node B x r _ ih =>
          intro syms h
          cases h with
          | node h1 h2 h3 => exact .node h1 h2 (ih _ h3)
      exact key (.leaf o before) rhsP hP2
    have hfin := hP3 rhsP _ hP1 hin
    rw [hF] at hfin
    cases hfin with
    | node ho hk hr =>
      rw [(IsTree.strip (g := g.toGrammar) ⟨_, kids', ho, hk, rfl⟩).1]

/-! ## Where it fails -/

/-- **C114 fails** where the name of a nonterminal is part of the name of an argument: the second
argument of this architecture, sampled from the grammar, is never mutated, because the operation of
the nonterminal `S` is looked for from the `S` of `OPS` on. -/
theorem C114_context_fails (fuel patience : ℕ) (ds : List ℕ) :
    cSampler (consDemo (.fn consFun)) 3 1 none [] false [0, 0, 0] =
        some (["(S Seq (OPS conv) (OPS conv))".toList], []) ∧
      (splitSp "(S Seq (OPS conv) (OPS conv))".toList)[4]? = some "(OPS".toList ∧
      cMutate (consDemo (.fn consFun)) consFun fuel "(S Seq (OPS conv) (OPS conv))".toList 4
        "OPS".toList patience ds = none := by
  refine ⟨by decide +kernel, by decide +kernel, ?_⟩
  have h : removeSubtree "(S Seq (OPS conv) (OPS conv))".toList 4 =
      some ("(S Seq (OPS conv) ".toList, "(OPS conv)".toList, ")".toList) := by decide +kernel
  have h2 : contextNotAllowed (consDemo (.fn consFun)) consFun "(S Seq (OPS conv) ".toList
      ")".toList "OPS".toList = none := by decide +kernel
  unfold cMutate
  rw [h]
  simp only
  rw [if_pos (by decide), h2]

/-- Two operations in sequence, with a name of the root that is not part of another name. -/
def ctxDemo (c : FunConstraint) : CGrammar where
  start := "T".toList
  prods := [⟨"T".toList, [.t "Seq".toList, .nt "OPS".toList, .nt "OPS".toList]⟩,
    ⟨"OPS".toList, [.t "conv".toList]⟩, ⟨"OPS".toList, [.t "zero".toList]⟩]
  prior := none
  constraints := .fn c
  noneOp := some "zero".toList

/-- Not both operations may be `zero`. -/
def ctxFun : FunConstraint where
  start op := some (if op = .t "Seq".toList then [none, none] else [])
  ask _ d := some (.bool (d.all (· != some "(OPS zero)".toList)))

/-- **C114 fails** for constraint functions that compare texts: the last argument after the one that
is mutated is told with additional brackets.  Here the function says no, but the argument becomes
the none operation. -/
theorem C114_brackets_fails :
    cMutate (ctxDemo ctxFun) ctxFun 2 "(T Seq (OPS conv) (OPS zero))".toList 2 "OPS".toList 1 [1] =
        some ("(T Seq (OPS zero) (OPS zero))".toList, []) ∧
      ctxFun.Answers "Seq".toList [] ["(OPS zero)".toList] false ∧
      ∀ b, ctxFun.Answers "Seq".toList [] ["(OPS zero)".toList] b → b = false := by
  refine ⟨by decide +kernel, Or.inl rfl, ?_⟩
  rintro b (h | ⟨l, h, _⟩)
  · have : ctxFun.ask (.t "Seq".toList) [none, some "(OPS zero)".toList] = some (.bool false) := rfl
    have h : ctxFun.ask (.t "Seq".toList) [none, some "(OPS zero)".toList] = some (.bool b) := h
    rw [this] at h
    simpa using h.symm
  · have : ctxFun.ask (.t "Seq".toList) [none, some "(OPS zero)".toList] = some (.bool false) := rfl
    have h : ctxFun.ask (.t "Seq".toList) [none, some "(OPS zero)".toList] = some (.list l) := h
    rw [this] at h
    simp at h

/-- The children of `(T Seq (OPS a) (OPS b))`. -/
def ctxKids (a b : Str) : Forest :=
  .leaf "Seq".toList (.node "OPS".toList (.leaf a .nil) (.node "OPS".toList (.leaf b .nil) .nil))

theorem ctxKids_iff (c : FunConstraint) (n : Option Str) (a b : Str) :
    EveryArgument (c.Permits n) "T".toList (ctxKids a b) ↔
      c.Permits n (.t "Seq".toList) [] "OPS".toList (.leaf a .nil) ∧
        c.Permits n (.t "Seq".toList) [treeText "OPS".toList (.leaf a .nil)] "OPS".toList
          (.leaf b .nil) := by
  rw [everyArgument_iff]
  constructor
  · rintro ⟨⟨op, h1, h2⟩, _⟩
    obtain rfl : Sym.t "Seq".toList = op := Option.some.inj h1
    exact ⟨h2 0 _ _ rfl, h2 1 _ _ rfl⟩
  · rintro ⟨h1, h2⟩
    refine ⟨⟨.t "Seq".toList, rfl, ?_⟩, ?_⟩
    · intro j B k hj
      match j with
      | 0 =>
        obtain ⟨rfl, rfl⟩ := Prod.mk.inj (Option.some.inj hj)
        exact h1
      | 1 =>
        obtain ⟨rfl, rfl⟩ := Prod.mk.inj (Option.some.inj hj)
        exact h2
      | j + 2 => simp [ctxKids, Forest.items] at hj
    · intro B k hk
      simp only [ctxKids, Forest.items, List.mem_cons, Prod.mk.injEq, List.not_mem_nil,
        or_false] at hk
      rcases hk with ⟨rfl, rfl⟩ | ⟨rfl, rfl⟩ <;>
        · rw [everyArgument_iff]
          exact ⟨⟨_, rfl, by simp [Forest.items]⟩, by simp [Forest.items]⟩

/-- **C114 fails** for the arguments after the one that is mutated: an architecture that satisfies
the constraint becomes one that does not. -/
theorem C114_later_fails :
    EveryArgument (consFun.Permits (some "zero".toList)) "T".toList
        (ctxKids "conv".toList "zero".toList) ∧
      cMutate (ctxDemo consFun) consFun 2
          (treeText "T".toList (ctxKids "conv".toList "zero".toList)) 2 "OPS".toList 1 [1] =
        some (treeText "T".toList (ctxKids "zero".toList "zero".toList), []) ∧
      ¬ EveryArgument (consFun.Permits (some "zero".toList)) "T".toList
        (ctxKids "zero".toList "zero".toList) := by
  refine ⟨?_, by decide +kernel, ?_⟩
  · rw [ctxKids_iff]
    exact ⟨⟨true, ⟨[none, none], rfl, by decide, Or.inr ⟨_, rfl, rfl⟩⟩, by simp⟩,
      ⟨true, ⟨[none, none], rfl, by decide, Or.inr ⟨_, rfl, by decide⟩⟩, by simp⟩⟩
  · rw [ctxKids_iff]
    rintro ⟨_, b, ⟨d, h1, _, h2⟩, h3⟩
    obtain rfl : [none, none] = d := Option.some.inj h1
    have e : consFun.ask (.t "Seq".toList) ([treeText "OPS".toList (.leaf "zero".toList .nil)].map
        some ++ [none, none].drop 1) = some (.list [true, false]) := rfl
    rcases h2 with h2 | ⟨l, h2, h4⟩
    · have := e.symm.trans h2
      simp at this
    · have := e.symm.trans h2
      simp only [Option.some.injEq, Answer.list.injEq] at this
      subst this
      obtain rfl : false = b := Option.some.inj h4
      exact h3 rfl _ rfl rfl

/-! ## A concrete case -/

/-- The function looks at the names of the other operations only. -/
def ctxLenient : FunConstraint where
  start op := some (if op = .t "Seq".toList then [none, none] else [])
  ask _ d := some (.bool (d.all fun x => match x with
    | none => true
    | some s => s.filter (· ≠ ')') != "(OPS zero".toList))

theorem ctx_tidy : (ctxDemo ctxLenient).Tidy ctxLenient where
  clean := ⟨by decide, by
    intro p hp s hs
    simp only [ctxDemo, List.mem_cons, List.not_mem_nil, or_false] at hp
    rcases hp with rfl | rfl | rfl <;> simp at hs <;> subst hs <;> decide, by
    intro p hp ch A hA
    have : A ∈ (["OPS".toList] : List Str) := by
      have e : (ctxDemo ctxLenient).swappable = ["OPS".toList] := by decide +kernel
      rw [← e]; exact hA
    simp only [List.mem_singleton] at this
    subst this
    simp only [ctxDemo, List.mem_cons, List.not_mem_nil, or_false] at hp
    rcases hp with rfl | rfl | rfl <;> simp⟩
  nodup := by decide
  names := by decide
  terminals := by
    intro p hp s hs
    have e : (ctxDemo ctxLenient).nonterminals = ["T".toList, "OPS".toList] := by decide +kernel
    rw [e]
    simp only [ctxDemo, List.mem_cons, List.not_mem_nil, or_false] at hp
    rcases hp with rfl | rfl | rfl <;> simp at hs <;> subst hs <;> decide
  operation := by
    intro p hp
    simp only [ctxDemo, List.mem_cons, List.not_mem_nil, or_false] at hp
    rcases hp with rfl | rfl | rfl <;> exact ⟨_, _, rfl⟩
  one := by decide
  arity := by
    intro p hp o rest he hn
    simp only [ctxDemo, List.mem_cons, List.not_mem_nil, or_false] at hp
    rcases hp with rfl | rfl | rfl
    · simp only [List.cons.injEq, Sym.t.injEq] at he
      obtain ⟨rfl, rfl⟩ := he
      exact ⟨_, rfl, rfl⟩
    · exact absurd rfl hn
    · exact absurd rfl hn

example : (ctxDemo ctxLenient).Tidy ctxLenient ∧ ctxLenient.Lenient ∧
    (∀ op, (ctxLenient.start op).isSome) ∧
    NamesApart "T".toList (ctxKids "zero".toList "conv".toList) ∧
    (splitSp (treeText "T".toList (ctxKids "zero".toList "conv".toList)))[4]? =
      some "(OPS".toList ∧ "OPS".toList ∈ (ctxDemo ctxLenient).swappable ∧
    cMutate (ctxDemo ctxLenient) ctxLenient 2
      (treeText "T".toList (ctxKids "conv".toList "conv".toList)) 4 "OPS".toList 1 [1] =
        some (treeText "T".toList (ctxKids "conv".toList "zero".toList), []) ∧
    cMutate (ctxDemo ctxLenient) ctxLenient 2
      (treeText "T".toList (ctxKids "conv".toList "zero".toList)) 2 "OPS".toList 1 [1] = none ∧
    cMutate (ctxDemo ctxLenient) ctxLenient 2
      (treeText "T".toList (ctxKids "conv".toList "zero".toList)) 2 "OPS".toList 1 [0] =
        some (treeText "T".toList (ctxKids "conv".toList "zero".toList), []) := by
  refine ⟨ctx_tidy, ?_, fun _ => rfl, ?_, by decide +kernel, by decide +kernel,
    by decide +kernel, by decide +kernel, by decide +kernel⟩
  · intro op before after after' h
    simp only [ctxLenient, List.all_append, List.all_cons, Bool.true_and]
    congr 3
    induction h with
    | nil => rfl
    | cons h _ ih =>
      obtain ⟨n, rfl⟩ := h
      simp only [List.map_cons, List.all_cons, ih, List.filter_append]
      congr 2
      simp
  · intro P ks h
    simp only [ctxKids, Forest.nodes, List.mem_cons, Prod.mk.injEq, List.not_mem_nil, or_false,
      List.append_nil, List.nil_append, List.cons_append] at h
    rcases h with ⟨rfl, rfl⟩ | ⟨rfl, rfl⟩ | ⟨rfl, rfl⟩ <;> decide +kernel

end Verif.Gram
