import Verif.Grammar.ContextLemmas

/-!
# Lemmas on collecting the other arguments of an operation
-/

namespace Verif.Gram

/-- What `collect` does behind a closing token. -/
def resume (c : FunConstraint) (strict : Bool) (toks : List Str) (st : Collect) : Option Collect :=
  if st.depth = 0 then
    let st := { st with tmp := strip st.tmp, args := st.args ++ [some (strip st.tmp)] }
    match st.full c with
    | none => none
    | some true => some st
    | some false => collect c strict toks { st with tmp := [] }
  else collect c strict toks st

theorem resume_pos {c : FunConstraint} {strict : Bool} {toks : List Str} {st : Collect}
    (h : 0 < st.depth) : resume c strict toks st = collect c strict toks st := by
  unfold resume
  rw [if_neg (by omega)]

theorem head_ne_open {s x : Str} (h1 : '(' ∉ s) (h2 : s ≠ []) : (s ++ x).head? ≠ some '(' := by
  cases s with
  | nil => exact absurd rfl h2
  | cons c cs =>
    simp only [List.cons_append, List.head?_cons, ne_eq, Option.some.injEq]
    rintro rfl
    exact h1 (by simp)

theorem collect_open {c : FunConstraint} {strict : Bool} {A : Str} {toks : List Str} {d m : ℕ}
    {ps : List Production} {tmp : Str} {args : List (Option Str)} (hd : 0 < d) :
    collect c strict (('(' :: A) :: toks) ⟨d, ps, m, tmp, args⟩ =
      collect c strict toks ⟨d + 1, ps, m, tmp ++ [' '] ++ ('(' :: A), args⟩ := by
  rw [collect]
  have h0 : ¬ (d = 0 ∧ 1 < ('(' :: A).length) := by omega
  simp only [reduceCtorEq, if_false, List.head?_cons, if_true, h0]

theorem collect_word {c : FunConstraint} {strict : Bool} {s : Str} {toks : List Str} {d m : ℕ}
    {ps : List Production} {tmp : Str} {args : List (Option Str)} (h1 : '(' ∉ s) (h2 : ')' ∉ s)
    (h3 : s ≠ []) : collect c strict (s :: toks) ⟨d, ps, m, tmp, args⟩ =
      collect c strict toks ⟨d, ps, m, if 0 < d then tmp ++ [' '] ++ s else tmp, args⟩ := by
  have hh := head_ne_open (x := []) h1 h3
  rw [List.append_nil] at hh
  have hl : s.getLast? ≠ some ')' := fun h => h2 (List.mem_of_getLast? h)
  rw [collect]
  simp only [h3, if_false, hh, hl]
  split_ifs <;> rfl

theorem collect_close {c : FunConstraint} {strict : Bool} {s : Str} {toks : List Str} {d m n : ℕ}
    {ps : List Production} {tmp : Str} {args : List (Option Str)} (h1 : '(' ∉ s) (h2 : ')' ∉ s)
    (h3 : s ≠ []) (hd : 0 < d) (hn : strict = true → n ≤ d) :
    collect c strict ((s ++ closing n) :: toks) ⟨d, ps, m, tmp, args⟩ =
      resume c strict toks ⟨d - n, ps, m, tmp ++ [' '] ++ (s ++ closing n), args⟩ := by
  cases n with
  | zero =>
    simp only [closing, List.replicate_zero, List.append_nil, Nat.sub_zero]
    rw [collect_word h1 h2 h3, if_pos hd, resume_pos hd]
  | succ n =>
    have hh := head_ne_open (x := closing (n + 1)) h1 h3
    have hl : (s ++ closing (n + 1)).getLast? = some ')' := by
      rw [closing, List.replicate_succ', ← List.append_assoc]; simp
    have h0 : s ++ closing (n + 1) ≠ [] := by simp [h3]
    have hs : ¬ (strict = true ∧ d < n + 1) := by
      rintro ⟨h, h'⟩
      have := hn h
      omega
    rw [collect]
    simp only [h0, if_false, hh, hl, if_true, dropClosing_closing h2 h3, hs]
    rfl

/-- Inside an argument everything is added to its text. -/
theorem collect_inner {N : List Str} {c : FunConstraint} {strict : Bool} (f : Forest) :
    f ≠ .nil → f.Solid N → ∀ (n d m : ℕ) (ps : List Production) (tmp : Str)
      (args : List (Option Str)) (toks : List Str), 0 < d → (strict = true → n ≤ d) →
      collect c strict (f.toks n ++ toks) ⟨d, ps, m, tmp, args⟩ =
        resume c strict toks ⟨d - n, ps, m, tmp ++ f.text ++ closing n, args⟩ := by
  induction f with
  | nil => intro h; exact absurd rfl h
  | leaf s r ih =>
    intro _ hs n d m ps tmp args toks hd hn
    by_cases hr : r = .nil
    · subst hr
      rw [Forest.toks, List.singleton_append, collect_close hs.1.2.1 hs.1.2.2 hs.2.1 hd hn]
      congr 2
      simp [Forest.text]
    · rw [toks_leaf s hr, List.cons_append, collect_word hs.1.2.1 hs.1.2.2 hs.2.1, if_pos hd,
        ih hr hs.2.2.2 n d m ps _ args toks hd hn]
      congr 2
      simp [Forest.text]
  | node A k r ihk ihr =>
    intro _ hs n d m ps tmp args toks hd hn
    by_cases hr : r = .nil
    · subst hr
      rw [Forest.toks, List.cons_append, collect_open hd,
        ihk hs.2.2.2.1 hs.2.2.2.2.1 (n + 1) (d + 1) m ps _ args toks (by omega)
          (fun h => by have := hn h; omega)]
      congr 2
      · omega
      · simp [Forest.text, closing, List.replicate_succ]
    · rw [toks_node A k hr, List.cons_append, collect_open hd, List.append_assoc,
        ihk hs.2.2.2.1 hs.2.2.2.2.1 1 (d + 1) m ps _ args _ (by omega) (fun _ => by omega),
        resume_pos (by simp; omega)]
      rw [show d + 1 - 1 = d by omega, ihr hr hs.2.2.2.2.2 n d m ps _ args toks hd hn]
      congr 2
      simp [Forest.text, closing, List.replicate_succ]

/-- The nonterminals at the roots of a sequence of trees. -/
def Forest.ntHeads (f : Forest) : List Str := f.items.map (·.1)

theorem nts_eq_ntHeads (A : Str) (f : Forest) : (⟨A, f.heads⟩ : Production).nts = f.ntHeads := by
  unfold Production.nts Forest.ntHeads
  simp only
  induction f with
  | nil => rfl
  | leaf s r ih => simpa [Forest.heads, Forest.items] using ih
  | node B k r _ ih =>
    simp only [Forest.heads, Forest.items, List.filterMap_cons, List.map_cons, ih]

theorem keepArg_single {p : Production} {n : ℕ} {A : Str} (h : p.nts[n]? = some A) :
    keepArg [p] n A = some [p] := by
  obtain ⟨hlt, he⟩ := List.getElem?_eq_some_iff.1 h
  unfold keepArg
  simp [hlt, he]

theorem strip_tree (A : Str) (k : Forest) (n : ℕ) :
    strip ([] ++ [' '] ++ ('(' :: A) ++ k.text ++ closing (n + 1)) =
      treeText A k ++ closing n := by
  have e : ([] ++ [' '] ++ ('(' :: A) ++ k.text ++ closing (n + 1) : Str) =
      ' ' :: (treeText A k ++ closing n) := by
    simp [treeText, closing, List.replicate_succ]
  rw [e]
  have hlast : ∃ r, treeText A k ++ closing n = r ++ [')'] := by
    cases n with
    | zero => exact ⟨'(' :: A ++ k.text, by simp [treeText]⟩
    | succ n => exact ⟨treeText A k ++ closing n, by rw [closing, List.replicate_succ']; simp⟩
  obtain ⟨r, hr⟩ := hlast
  have a : (treeText A k ++ closing n).dropWhile Char.isWhitespace = treeText A k ++ closing n := by
    unfold treeText
    simp only [List.cons_append]
    rw [List.dropWhile_cons_of_neg (by decide)]
  have b : (treeText A k ++ closing n).reverse.dropWhile Char.isWhitespace =
      (treeText A k ++ closing n).reverse := by
    rw [hr, List.reverse_append, List.reverse_singleton, List.singleton_append,
      List.dropWhile_cons_of_neg (by decide)]
  unfold strip
  rw [List.dropWhile_cons_of_pos (by decide), a, b, List.reverse_reverse]

theorem full_single {c : FunConstraint} {p : Production} {op : Sym} {d : List (Option Str)}
    (hop : p.rhs.head? = some op) (hd : c.start op = some d) (depth m : ℕ) (tmp : Str)
    (args : List (Option Str)) :
    (⟨depth, [p], m, tmp, args⟩ : Collect).full c = some (decide (args.length = d.length)) := by
  simp only [Collect.full, hop, hd, Option.map_some]

/-- The first token of an argument. -/
theorem collect_arg {N : List Str} {c : FunConstraint} {strict : Bool} {p : Production} {A : Str}
    {k : Forest} (hA : A ≠ []) (hk : k ≠ .nil) (hks : k.Solid N) {n m : ℕ}
    (hm : p.nts[m]? = some A) (hn : strict = true → n = 0) (args : List (Option Str))
    (toks : List Str) :
    collect c strict ((('(' :: A) :: k.toks (n + 1)) ++ toks) ⟨0, [p], m, [], args⟩ =
      resume c strict toks ⟨0, [p], m + 1, [] ++ [' '] ++ ('(' :: A) ++ k.text ++ closing (n + 1),
        args⟩ := by
  rw [List.cons_append, collect]
  have h0 : True ∧ 1 < ('(' :: A).length := by
    cases A with
    | nil => exact absurd rfl hA
    | cons => simp
  simp only [reduceCtorEq, if_false, List.head?_cons, if_true, List.drop_succ_cons,
    List.drop_zero, keepArg_single hm, Option.map_some]
  rw [if_pos h0]
  simp only
  rw [collect_inner k hk hks (n + 1) (0 + 1) (m + 1) [p] _ args toks (by omega)
    (fun h => by rw [hn h])]
  congr 2
  omega

theorem resume_arg {c : FunConstraint} {strict : Bool} {p : Production} {op : Sym}
    {d : List (Option Str)} (hop : p.rhs.head? = some op) (hd : c.start op = some d) (A : Str)
    (k : Forest) (n m : ℕ) (args : List (Option Str)) (toks : List Str) :
    resume c strict toks ⟨0, [p], m, [] ++ [' '] ++ ('(' :: A) ++ k.text ++ closing (n + 1), args⟩ =
      if args.length + 1 = d.length then
        some ⟨0, [p], m, treeText A k ++ closing n, args ++ [some (treeText A k ++ closing n)]⟩
      else collect c strict toks ⟨0, [p], m, [], args ++ [some (treeText A k ++ closing n)]⟩ := by
  unfold resume
  simp only [if_true]
  rw [strip_tree, full_single hop hd]
  simp only [List.length_append, List.length_singleton]
  by_cases h : args.length + 1 = d.length
  · rw [if_pos h, decide_eq_true h]
  · rw [if_neg h, decide_eq_false h]

/-- The arguments before the place. -/
theorem collect_before {N : List Str} {c : FunConstraint} {p : Production} {op : Sym}
    {d : List (Option Str)} (hop : p.rhs.head? = some op) (hd : c.start op = some d) (f : Forest) :
    f ≠ .nil → f.Solid N → ∀ (m : ℕ) (args : List (Option Str)) (toks : List Str) (more : List Str),
      p.nts.drop m = f.ntHeads ++ more → args.length + f.items.length < d.length →
      collect c true (f.toks 0 ++ toks) ⟨0, [p], m, [], args⟩ =
        collect c true toks ⟨0, [p], m + f.items.length, [],
          args ++ f.items.map fun x => some (treeText x.1 x.2)⟩ := by
  have hnt : ∀ (l : List Str) m (A : Str) more, l.drop m = A :: more →
      l[m]? = some A ∧ l.drop (m + 1) = more := by
    intro l m A more h
    have h1 : (l.drop m)[0]? = some A := by rw [h]; rfl
    rw [List.getElem?_drop, Nat.add_zero] at h1
    refine ⟨h1, ?_⟩
    rw [← List.drop_drop, h]
    rfl
  induction f with
  | nil => intro h; exact absurd rfl h
  | leaf s r ih =>
    intro _ hs m args toks more hm hl
    by_cases hr : r = .nil
    · subst hr
      rw [Forest.toks, closing, List.replicate_zero, List.append_nil, List.singleton_append,
        collect_word hs.1.2.1 hs.1.2.2 hs.2.1]
      simp [Forest.items]
    · rw [toks_leaf s hr, List.cons_append, collect_word hs.1.2.1 hs.1.2.2 hs.2.1]
      simp only [lt_self_iff_false, if_false]
      rw [ih hr hs.2.2.2 m args toks more hm hl]
      rfl
  | node A k r _ ih =>
    intro _ hs m args toks more hm hl
    simp only [Forest.ntHeads, Forest.items, List.map_cons, List.cons_append] at hm
    obtain ⟨h1, h2⟩ := hnt _ _ _ _ hm
    simp only [Forest.items, List.length_cons] at hl
    have hne : ¬ args.length + 1 = d.length := by omega
    by_cases hr : r = .nil
    · subst hr
      rw [Forest.toks, Nat.zero_add, show (('(' :: A) :: k.toks 1) = ('(' :: A) :: k.toks (0 + 1) by rfl,
        collect_arg hs.2.1 hs.2.2.2.1 hs.2.2.2.2.1 h1 (fun _ => rfl), resume_arg hop hd,
        if_neg hne]
      simp [Forest.items, closing]
    · rw [toks_node A k hr, ← List.cons_append, List.append_assoc,
        show (('(' :: A) :: k.toks 1) = ('(' :: A) :: k.toks (0 + 1) by rfl,
        collect_arg hs.2.1 hs.2.2.2.1 hs.2.2.2.2.1 h1 (fun _ => rfl), resume_arg hop hd,
        if_neg hne, ih hr hs.2.2.2.2.2 (m + 1) _ toks more h2 (by simp; omega)]
      congr 2
      · simp only [Forest.items, List.length_cons]; omega
      · simp [Forest.items, closing]

/-- A text followed by closing brackets. -/
def UpToClosing (d : Option Str) (t : Str) : Prop := ∃ m, d = some (t ++ closing m)

/-- The arguments behind the place. -/
theorem collect_after {N : List Str} {c : FunConstraint} {p : Production} {op : Sym}
    {d : List (Option Str)} (hop : p.rhs.head? = some op) (hd : c.start op = some d) (f : Forest) :
    f.items ≠ [] → f.Solid N → ∀ (n m : ℕ) (args : List (Option Str)) (toks : List Str)
      (more : List Str), p.nts.drop m = f.ntHeads ++ more →
      args.length + f.items.length = d.length →
      ∃ st args', collect c false (f.toks n ++ toks) ⟨0, [p], m, [], args⟩ = some st ∧
        st.args = args ++ args' ∧
        List.Forall₂ UpToClosing args' (f.items.map fun x => treeText x.1 x.2) := by
  have hnt : ∀ (l : List Str) m (A : Str) more, l.drop m = A :: more →
      l[m]? = some A ∧ l.drop (m + 1) = more := by
    intro l m A more h
    have h1 : (l.drop m)[0]? = some A := by rw [h]; rfl
    rw [List.getElem?_drop, Nat.add_zero] at h1
    refine ⟨h1, ?_⟩
    rw [← List.drop_drop, h]
    rfl
  induction f with
  | nil => intro h; exact absurd rfl h
  | leaf s r ih =>
    intro hi hs n m args toks more hm hl
    have hr : r ≠ .nil := by rintro rfl; exact hi rfl
    obtain ⟨st, args', h1, h2, h3⟩ := ih hi hs.2.2.2 n m args toks more hm hl
    refine ⟨st, args', ?_, h2, h3⟩
    rw [toks_leaf s hr, List.cons_append, collect_word hs.1.2.1 hs.1.2.2 hs.2.1]
    simpa using h1
  | node A k r _ ih =>
    intro _ hs n m args toks more hm hl
    simp only [Forest.ntHeads, Forest.items, List.map_cons, List.cons_append] at hm
    obtain ⟨h1, h2⟩ := hnt _ _ _ _ hm
    simp only [Forest.items, List.length_cons] at hl
    by_cases hr : r = .nil
    · subst hr
      refine ⟨⟨0, [p], m + 1, treeText A k ++ closing n, args ++ [some (treeText A k ++ closing n)]⟩,
        [some (treeText A k ++ closing n)], ?_, rfl, ?_⟩
      · rw [Forest.toks, collect_arg hs.2.1 hs.2.2.2.1 hs.2.2.2.2.1 h1 (by simp),
          resume_arg hop hd, if_pos (by simpa [Forest.items] using hl)]
      · exact .cons ⟨n, rfl⟩ .nil
    · have key : collect c false ((Forest.node A k r).toks n ++ toks) ⟨0, [p], m, [], args⟩ =
          if args.length + 1 = d.length then
            some ⟨0, [p], m + 1, treeText A k ++ closing 0,
              args ++ [some (treeText A k ++ closing 0)]⟩
          else collect c false (r.toks n ++ toks)
            ⟨0, [p], m + 1, [], args ++ [some (treeText A k ++ closing 0)]⟩ := by
        rw [toks_node A k hr, ← List.cons_append, List.append_assoc,
          show (('(' :: A) :: k.toks 1) = ('(' :: A) :: k.toks (0 + 1) by rfl,
          collect_arg hs.2.1 hs.2.2.2.1 hs.2.2.2.2.1 h1 (by simp), resume_arg hop hd]
      by_cases hi : r.items = []
      · rw [hi] at hl
        refine ⟨_, [some (treeText A k ++ closing 0)], key.trans (if_pos (by simpa using hl)), rfl,
          ?_⟩
        simp only [Forest.items, hi, List.map_cons, List.map_nil]
        exact .cons ⟨0, rfl⟩ .nil
      · have hpos : 0 < r.items.length := List.length_pos_iff.2 hi
        obtain ⟨st, args', e1, e2, e3⟩ := ih hi hs.2.2.2.2.2 n (m + 1)
          (args ++ [some (treeText A k ++ closing 0)]) toks more h2 (by simp; omega)
        refine ⟨st, some (treeText A k ++ closing 0) :: args', ?_, by rw [e2]; simp, ?_⟩
        · rw [key, if_neg (by omega), e1]
        · exact .cons ⟨0, rfl⟩ e3

end Verif.Gram
