import Verif.Grammar.CollectLemmas
import Verif.Grammar.ContextSpec
import Verif.Grammar.ConstrainedProps

/-!
# The context of a place in a tree
-/

namespace Verif.Gram

theorem Derives.solid {g : CGrammar} {c : FunConstraint} (hg : g.Tidy c) {syms f}
    (h : Derives g.Legal syms f) : (∀ s, .t s ∈ syms → (' ' ∉ s ∧ '(' ∉ s ∧ ')' ∉ s) ∧ s ≠ [] ∧
      s ∉ g.nonterminals) → f.Solid g.nonterminals := by
  induction h with
  | nil => intro _; trivial
  | leaf _ ih =>
    intro hs
    obtain ⟨h1, h2, h3⟩ := hs _ (List.mem_cons_self ..)
    exact ⟨h1, h2, h3, ih fun s hm => hs s (List.mem_cons_of_mem _ hm)⟩
  | node ho hk _ i1 i2 =>
    rename_i A rhs kids syms f _
    intro hs
    have hl := hg.clean.lhs _ ho
    refine ⟨⟨hl.1, hl.2.1, hl.2.2.1⟩, hl.2.2.2, ⟨?_, hg.names _ ho⟩, ?_, i1 ?_,
      i2 fun s hm => hs s (List.mem_cons_of_mem _ hm)⟩
    · unfold Grammar.nonterminals Grammar.lhss
      rw [List.mem_dedup, List.mem_map]
      exact ⟨_, ho, rfl⟩
    · obtain ⟨o, rest, e⟩ := hg.operation _ ho
      simp only at e
      subst e
      cases hk
      simp
    · intro s hm
      exact ⟨hg.clean.rhs _ ho s hm, hg.terminals _ ho s hm⟩

theorem At.closing {A kids f u v F} (h : At A kids f u v F) :
    ∃ m v', v = Verif.Gram.closing m ++ v' ∧ Apart v' := by
  have key : ∀ r : Forest, Apart r.text := fun r => by
    have := apart_text r (v := []) (Or.inl rfl)
    simpa using this
  have key2 : ∀ (m : ℕ) (v' : Str) (r : Forest), Apart v' → ∃ m' v'',
      Verif.Gram.closing m ++ v' ++ ')' :: r.text = Verif.Gram.closing m' ++ v'' ∧ Apart v'' := by
    intro m v' r hv
    rcases hv with rfl | ⟨x, rfl⟩
    · refine ⟨m + 1, r.text, ?_, key r⟩
      simp [Verif.Gram.closing, List.replicate_succ']
    · exact ⟨m, ' ' :: x ++ ')' :: r.text, by simp, Or.inr ⟨_, rfl⟩⟩
  induction h with
  | here rest => exact ⟨0, rest.text, by simp [Verif.Gram.closing], key rest⟩
  | leaf s h ih => exact ih
  | down B r h ih =>
    obtain ⟨m, v', rfl, hv⟩ := ih
    exact key2 m v' r hv
  | next B k h ih => exact ih

/-- The argument is one of several, or it is at the top. -/
theorem At.parent {A k f u v F} (h : At A k f u v F) :
    (∃ before after : Forest, f = before.append (.node A k after) ∧ u = before.text ∧ v = after.text ∧
      ∀ x, F x = before.append (.node A x after)) ∨
    ∃ (P : Str) (before after : Forest) (u' v' : Str) (F' : Forest → Forest),
      At P (before.append (.node A k after)) f u' v' F' ∧
      u = u' ++ ' ' :: '(' :: P ++ before.text ∧ v = after.text ++ ')' :: v' ∧
      ∀ x, F x = F' (before.append (.node A x after)) := by
  induction h with
  | here rest => exact Or.inl ⟨.nil, rest, rfl, rfl, rfl, fun _ => rfl⟩
  | leaf s h ih =>
    rcases ih with ⟨b, a, rfl, rfl, rfl, h4⟩ | ⟨P, b, a, u', v', F', h1, rfl, rfl, h4⟩
    · exact Or.inl ⟨.leaf s b, a, rfl, rfl, rfl, fun x => by simp only [h4]; rfl⟩
    · exact Or.inr ⟨P, b, a, _, _, _, .leaf s h1, by simp, rfl, fun x => by simp only [h4]⟩
  | down B r h ih =>
    rcases ih with ⟨b, a, rfl, rfl, rfl, h4⟩ | ⟨P, b, a, u', v', F', h1, rfl, rfl, h4⟩
    · exact Or.inr ⟨B, b, a, _, _, _, .here r, by simp, rfl, fun x => by simp only [h4]⟩
    · exact Or.inr ⟨P, b, a, _, _, _, .down B r h1, by simp, by simp, fun x => by simp only [h4]⟩
  | next B k' h ih =>
    rcases ih with ⟨b, a, rfl, rfl, rfl, h4⟩ | ⟨P, b, a, u', v', F', h1, rfl, rfl, h4⟩
    · exact Or.inl ⟨.node B k' b, a, rfl, by simp [Forest.text], rfl, fun x => by simp only [h4]; rfl⟩
    · exact Or.inr ⟨P, b, a, _, _, _, .next B k' h1, by simp, rfl, fun x => by simp only [h4]⟩

theorem At.changes {good P kids f u v F} (h : At P kids f u v F) {x : Forest}
    (hx : ChangesArgument good kids x) :
    ∃ (pre : Forest) (B : Str) (k k' r : Forest), f = pre.append (.node B k r) ∧
      F x = pre.append (.node B k' r) ∧ ChangesArgument good k k' := by
  induction h with
  | here rest => exact ⟨.nil, P, kids, x, rest, rfl, rfl, hx⟩
  | leaf s h ih =>
    obtain ⟨pre, B, k, k', r, rfl, h2, h3⟩ := ih
    exact ⟨.leaf s pre, B, k, k', r, rfl, by simp only [h2]; rfl, h3⟩
  | down B r h ih =>
    obtain ⟨pre, B', k, k', r', rfl, h2, h3⟩ := ih
    exact ⟨.nil, B, _, _, r, rfl, by simp only [h2]; rfl, .deeper h3⟩
  | next B k0 h ih =>
    obtain ⟨pre, B', k, k', r, rfl, h2, h3⟩ := ih
    exact ⟨.node B k0 pre, B', k, k', r, rfl, by simp only [h2]; rfl, h3⟩

theorem At.mem_nodes {A kids f u v F} (h : At A kids f u v F) : (A, kids) ∈ f.nodes := by
  induction h with
  | here rest => simp [Forest.nodes]
  | leaf s h ih => exact ih
  | down B r h ih => simp [Forest.nodes, ih]
  | next B k h ih => simp [Forest.nodes, ih]

theorem At.solid {N A kids f u v F} (h : At A kids f u v F) (hf : f.Solid N) :
    kids.Solid N ∧ kids ≠ .nil ∧ (' ' ∉ A ∧ '(' ∉ A ∧ ')' ∉ A) ∧ A ≠ [] ∧
      A ∈ N ∧ A ∉ [[' '], ['\t'], ['\n'], ['['], [']']] := by
  induction h with
  | here rest => exact ⟨hf.2.2.2.2.1, hf.2.2.2.1, hf.1, hf.2.1, hf.2.2.1⟩
  | leaf s h ih => exact ih hf.2.2.2
  | down B r h ih => exact ih hf.2.2.2.2.1
  | next B k h ih => exact ih hf.2.2.2.2.2

theorem solid_append {N : List Str} (a b : Forest) :
    (a.append b).Solid N ↔ a.Solid N ∧ b.Solid N := by
  induction a with
  | nil => simp [Forest.append, Forest.Solid]
  | leaf s r ih =>
    simp only [Forest.append, Forest.Solid, ih]
    tauto
  | node A k r _ ih =>
    simp only [Forest.append, Forest.Solid, ih]
    tauto

theorem append_text (a b : Forest) : (a.append b).text = a.text ++ b.text := by
  induction a with
  | nil => simp [Forest.append, Forest.text]
  | leaf s r ih => simp [Forest.append, Forest.text, ih]
  | node A k r _ ih => simp [Forest.append, Forest.text, ih]

theorem append_items (a b : Forest) : (a.append b).items = a.items ++ b.items := by
  induction a with
  | nil => simp [Forest.append, Forest.items]
  | leaf s r ih => simpa [Forest.append, Forest.items] using ih
  | node A k r _ ih => simp [Forest.append, Forest.items, ih]

theorem append_heads (a b : Forest) : (a.append b).heads = a.heads ++ b.heads := by
  induction a with
  | nil => simp [Forest.append, Forest.heads]
  | leaf s r ih => simpa [Forest.append, Forest.heads] using ih
  | node A k r _ ih => simp [Forest.append, Forest.heads, ih]

theorem filter_single {α : Type*} {l : List α} {p : α → Bool} {x : α} (hn : l.Nodup) (hx : x ∈ l)
    (hp : p x = true) (h : ∀ y ∈ l, p y = true → y = x) : l.filter p = [x] := by
  induction l with
  | nil => cases hx
  | cons y l ih =>
    obtain ⟨h1, h2⟩ := List.nodup_cons.1 hn
    by_cases hy : p y = true
    · have e := h y (by simp) hy
      subst e
      rw [List.filter_cons_of_pos hy, List.filter_eq_nil_iff.2]
      intro z hz hpz
      exact h1 ((h z (by simp [hz]) hpz) ▸ hz)
    · rw [List.filter_cons_of_neg hy]
      rcases List.mem_cons.1 hx with rfl | hx
      · exact absurd hp hy
      · exact ih h2 hx fun z hz => h z (by simp [hz])

theorem toks_head (o : Str) (f : Forest) (l : List Str) :
    ((Forest.leaf o f).toks 0 ++ l).headD [] = o := by
  cases f <;> simp [Forest.toks, closing]

theorem collect_empty {c : FunConstraint} {strict : Bool} {toks : List Str} {st : Collect} :
    collect c strict ([] :: toks) st = collect c strict toks st := by
  rw [collect, if_pos rfl]

/-- The context of an argument: the other arguments, the last of which may be followed by closing
brackets. -/
theorem computeContext_ok {g : CGrammar} {c : FunConstraint} (hg : g.Tidy c)
    {root P o A : Str} {kids before k after : Forest} {u v : Str} {F : Forest → Forest}
    (hD : Derives g.Legal [.nt root] (.node root kids .nil))
    (hat : At P (.leaf o (before.append (.node A k after))) (.node root kids .nil) u v F)
    (hocc : ∀ a b, o ++ before.text ++ [' '] ≠ a ++ P ++ b) (pre post : Str)
    (hpre : ' ' :: pre = u ++ ' ' :: '(' :: P ++ ' ' :: o ++ before.text ++ [' '])
    (hpost : post = after.text ++ ')' :: v) :
    ∃ args, computeContext g c pre post = some (o, before.texts.map some ++ none :: args) ∧
      List.Forall₂ UpToClosing args after.texts := by
  have hsolid := hD.solid hg (by simp)
  obtain ⟨hks, -, ⟨hP1, hP2, hP3⟩, hP4, hP5⟩ := hat.solid hsolid
  obtain ⟨ho, ho0, hoN, hks⟩ := hks
  rw [solid_append] at hks
  obtain ⟨hb, hAk⟩ := hks
  have ha : after.Solid g.nonterminals := hAk.2.2.2.2.2
  have hob : (Forest.leaf o before).Solid g.nonterminals := ⟨ho, ho0, hoN, hb⟩
  obtain ⟨rhs, hl, hd, -⟩ := hat.derives hD
  have hheads := hd.heads_eq
  -- the open nonterminals
  have hsp : splitSp (o ++ before.text ++ [' ']) = (Forest.leaf o before).toks 0 ++ [[]] := by
    have := splitSp_toks (Forest.leaf o before) (by simp) hob 0 [' '] (Or.inr ⟨[], rfl⟩)
    have e : (Forest.leaf o before).text ++ closing 0 ++ [' '] =
        ' ' :: (o ++ before.text ++ [' ']) := by simp [Forest.text, closing]
    rw [e, splitSp_space] at this
    simpa [splitSp] using this
  have hopen : ∃ q, (splitSp pre).foldlM (openStep g.toGrammar) [] = some (P :: q) := by
    obtain ⟨q, hq⟩ := openFold_at hat hsolid ([] : List Str)
    refine ⟨q, ?_⟩
    have h1 := hq (' ' :: '(' :: P ++ ' ' :: o ++ before.text ++ [' ']) (Or.inr ⟨_, rfl⟩)
    have e : u ++ (' ' :: '(' :: P ++ ' ' :: o ++ before.text ++ [' ']) = ' ' :: pre := by
      rw [hpre]; simp
    rw [e, splitSp_space] at h1
    have h2 : ([] :: splitSp pre).foldlM (openStep g.toGrammar) [] =
        (splitSp pre).foldlM (openStep g.toGrammar) [] := by
      simp [List.foldlM_cons, openStep]
    rw [h2] at h1
    rw [h1]
    have e2 : splitSp (' ' :: '(' :: P ++ ' ' :: o ++ before.text ++ [' ']) =
        [] :: ('(' :: P) :: ((Forest.leaf o before).toks 0 ++ [[]]) := by
      have e3 : (' ' :: '(' :: P ++ ' ' :: o ++ before.text ++ [' '] : Str) =
          ' ' :: (('(' :: P) ++ ' ' :: (o ++ before.text ++ [' '])) := by simp
      rw [e3, splitSp_space, splitSp_append_space, hsp, splitSp_free _ (by simp [hP1])]
      rfl
    rw [e2]
    have s1 : openStep g.toGrammar q [] = some q := by simp [openStep]
    have s2 := openStep_node (g := g.toGrammar) hP3 hP4 hP5 q
    have s3 := openFold_toks (g := g.toGrammar) (Forest.leaf o before) (by simp) hob 0 (P :: q)
      (by simp)
    simp only [List.foldlM_cons, s1, s2, Option.bind_eq_bind, Option.bind_some, List.foldlM_append,
      s3, List.drop_zero, List.foldlM_nil]
    simp [openStep]
  obtain ⟨q, hopen⟩ := hopen
  -- the text of the operation
  have hlast : fromLast P pre = some (P ++ ' ' :: (o ++ before.text ++ [' '])) := by
    have e : ∃ x, pre = x ++ (P ++ ' ' :: (o ++ before.text ++ [' '])) := by
      cases u with
      | nil =>
        simp only [List.nil_append, List.cons_append, List.cons.injEq, true_and] at hpre
        exact ⟨['('], by rw [hpre]; simp⟩
      | cons x u =>
        simp only [List.cons_append, List.cons.injEq] at hpre
        exact ⟨u ++ [' ', '('], by rw [hpre.2]; simp⟩
    obtain ⟨x, rfl⟩ := e
    exact fromLast_append hP4 hP1 x hocc
  have hdrop : (P ++ ' ' :: (o ++ before.text ++ [' '])).drop (P.length + 1) =
      o ++ before.text ++ [' '] := by
    rw [← List.drop_drop, List.drop_left]; rfl
  have htake : (P ++ ' ' :: (o ++ before.text ++ [' '])).take P.length = P := List.take_left
  -- the productions
  have hrhs : ∃ rest, rhs = .t o :: rest := by
    rw [← hheads]; exact ⟨_, rfl⟩
  obtain ⟨rest, rfl⟩ := hrhs
  have hany : (g.productions P).any (fun p => p.rhs.isEmpty) = false := by
    rw [List.any_eq_false]
    intro p hp
    obtain ⟨o', r', e⟩ := hg.operation p (List.mem_filter.1 hp).1
    simp [e]
  have hprods : (g.productions P).filter (fun p => p.rhs.head? = some (.t o)) =
      [⟨P, .t o :: rest⟩] := by
    unfold Grammar.productions
    refine filter_single (hg.nodup.filter _) (List.mem_filter.2 ⟨hl, by simp⟩) (by simp) ?_
    intro y hy hp
    obtain ⟨hy, hyP⟩ := List.mem_filter.1 hy
    simp only [decide_eq_true_eq] at hp hyP
    exact hg.one y hy _ hl hyP (by rw [hp]; rfl)
  have hnts : (⟨P, .t o :: rest⟩ : Production).nts = before.ntHeads ++ A :: after.ntHeads := by
    rw [← hheads, nts_eq_ntHeads]
    unfold Forest.ntHeads
    simp [Forest.items, append_items]
  obtain ⟨d, hd1, hd2⟩ := hg.arity _ hl o rest rfl (by rw [hnts]; simp)
  rw [hnts] at hd2
  simp only [Forest.ntHeads, List.length_append, List.length_map, List.length_cons] at hd2
  have hop : (⟨P, .t o :: rest⟩ : Production).rhs.head? = some (.t o) := rfl
  have hc1 : collect c true ((Forest.leaf o before).toks 0 ++ [[]])
      ⟨0, [⟨P, .t o :: rest⟩], 0, [], []⟩ =
      some ⟨0, [⟨P, .t o :: rest⟩], before.items.length, [], before.texts.map some⟩ := by
    rw [collect_before hop hd1 (Forest.leaf o before) (by simp) hob 0 [] [[]] (A :: after.ntHeads)
      (by rw [List.drop_zero, hnts]; rfl) (by simp [Forest.items]; omega), collect_empty, collect]
    simp [Forest.items, Forest.texts]
  unfold computeContext
  simp only [hopen, hlast, hdrop, htake, hsp, toks_head, hany, Bool.false_eq_true, if_false, hprods,
    List.length_singleton, Nat.one_ne_zero, hc1, full_single hop hd1]
  by_cases hai : after.items = []
  · have e : (before.texts.map some ++ [none]).length = d.length := by
      rw [hd2, hai]; simp [Forest.texts]
    refine ⟨[], ?_, ?_⟩
    · simp only [e, decide_true]
    · unfold Forest.texts
      rw [hai]
      exact .nil
  · have hpos : 0 < after.items.length := List.length_pos_iff.2 hai
    have e : ¬ (before.texts.map some ++ [none]).length = d.length := by
      rw [hd2]; simp [Forest.texts]; omega
    simp only [e, decide_false]
    obtain ⟨m, v', rfl, hv⟩ := hat.closing
    have hane : after ≠ .nil := by rintro rfl; exact hai rfl
    have hsp2 : splitSp post = [] :: (after.toks (m + 1) ++ (splitSp v').tail) := by
      rw [← splitSp_toks after hane ha (m + 1) v' hv, hpost]
      simp [closing, List.replicate_succ]
    obtain ⟨st, args, h1, h2, h3⟩ := collect_after hop hd1 after hai ha (m + 1)
      (before.items.length + 1) (before.texts.map some ++ [none]) ((splitSp v').tail) []
      (by
        rw [hnts, List.append_nil]
        have : before.ntHeads.length = before.items.length := by simp [Forest.ntHeads]
        rw [← this, List.drop_append, List.drop_eq_nil_of_le (by omega)]
        simp)
      (by rw [hd2]; simp [Forest.texts]; omega)
    refine ⟨args, ?_, h3⟩
    rw [hsp2, collect_empty, h1, Option.map_some, h2]
    simp

end Verif.Gram
