import Verif.Grammar.ConstrainedLemmas
import Mathlib.Data.List.Induction
import Mathlib.Tactic.Set

/-!
# Constraint functions and constraint objects as rules, and the prior
-/

namespace Verif.Gram

/-! ## Constraint functions and objects -/

theorem funFold (d : List (Option Str)) (before : List Str) : ∀ st : List (Option Str) × ℕ,
    before.foldlM funUpdate (d, 0) = some st ↔ before.length ≤ d.length ∧
      st = (before.map some ++ d.drop before.length, before.length) := by
  induction before using List.reverseRecOn with
  | nil =>
    intro st
    simp only [List.foldlM_nil, List.map_nil, List.length_nil, List.drop_zero, List.nil_append,
      Nat.zero_le, true_and, Option.pure_def, Option.some.injEq]
    exact eq_comm
  | append_singleton l s ih =>
    intro st
    have h0 : (l ++ [s]).foldlM funUpdate (d, 0) =
        (l.foldlM funUpdate (d, 0)).bind fun x => funUpdate x s := by
      rw [List.foldlM_append]
      simp
    have h6 : ∀ h : l.length < d.length,
        d.drop l.length = d[l.length] :: d.drop (l.length + 1) := fun h =>
      List.drop_eq_getElem_cons h
    rw [h0]
    simp only [Option.bind_eq_some_iff, ih]
    constructor
    · rintro ⟨x, ⟨h2, rfl⟩, h3⟩
      unfold funUpdate at h3
      split_ifs at h3 with h4
      simp only [List.length_append, List.length_map, List.length_drop] at h4
      have h5 : l.length < d.length := by omega
      refine ⟨by simp; omega, ?_⟩
      rw [← Option.some.inj h3]
      refine Prod.ext ?_ (by simp)
      simp only [List.length_append, List.length_singleton, List.map_append, List.map_singleton]
      rw [List.set_append]
      simp only [List.length_map, lt_self_iff_false, if_false, Nat.sub_self, List.append_assoc,
        List.append_cancel_left_eq]
      rw [h6 h5]
      rfl
    · rintro ⟨h2, rfl⟩
      simp only [List.length_append, List.length_singleton] at h2
      have h5 : l.length < d.length := by omega
      refine ⟨_, ⟨by omega, rfl⟩, ?_⟩
      unfold funUpdate
      rw [if_pos (by simp; omega)]
      congr 1
      refine Prod.ext ?_ (by simp)
      simp only [List.length_append, List.length_singleton, List.map_append, List.map_singleton]
      rw [List.set_append]
      simp only [List.length_map, lt_self_iff_false, if_false, Nat.sub_self, List.append_assoc,
        List.append_cancel_left_eq]
      rw [h6 h5]
      rfl

theorem funAt (g : CGrammar) (c : FunConstraint) (op : Sym) (before : List Str)
    (st : List (Option Str) × ℕ) : (funRule g c).At op before = some st ↔
      ∃ d, c.start op = some d ∧ before.length ≤ d.length ∧
        st = (before.map some ++ d.drop before.length, before.length) := by
  change (((c.start op).map fun d => ((d, 0) : List (Option Str) × ℕ)).bind fun x =>
    before.foldlM funUpdate x) = some st ↔ _
  cases c.start op with
  | none => simp
  | some d =>
    simp only [Option.map_some, Option.bind_some, Option.some.injEq, exists_eq_left']
    exact funFold d before st

theorem mem_notAllowedProds {noneOp : Option Str} {ps : List Production} {b : Bool}
    {p : Production} : p ∈ notAllowedProds noneOp ps b ↔
      p ∈ ps ∧ b = false ∧ ∃ s, noneOp = some s ∧ p.rhs = [.t s] := by
  unfold notAllowedProds
  rw [List.mem_filter]
  refine and_congr_right fun _ => ?_
  obtain ⟨lhs, rhs⟩ := p
  cases b with
  | true => simp
  | false =>
    match rhs with
    | [] => simp
    | [.nt A] => simp
    | [.t s] => simp; exact eq_comm
    | a :: b :: r => simp

theorem funNotAllowed_iff (g : CGrammar) (c : FunConstraint) (op : Sym) (deriv : List (Option Str))
    (n : ℕ) (B : Str) (na : List Production) : funNotAllowed g c op (deriv, n) B = some na ↔
      ∃ b, (c.ask op deriv = some (.bool b) ∨ ∃ l, c.ask op deriv = some (.list l) ∧ l[n]? = some b) ∧
        na = notAllowedProds g.noneOp (g.productions B) b := by
  unfold funNotAllowed
  simp only
  cases h : c.ask op deriv with
  | none => simp
  | some a =>
    cases a with
    | bool b =>
      simp only [Option.some.injEq, Answer.bool.injEq, reduceCtorEq, false_and, exists_false,
        or_false]
      constructor
      · rintro rfl; exact ⟨b, rfl, rfl⟩
      · rintro ⟨_, rfl, rfl⟩; rfl
    | list l =>
      simp only [Option.map_eq_some_iff, Option.some.injEq, reduceCtorEq, false_or,
        Answer.list.injEq, exists_eq_left']
      constructor
      · rintro ⟨b, h, rfl⟩; exact ⟨b, h, rfl⟩
      · rintro ⟨b, h, rfl⟩; exact ⟨b, h, rfl⟩

/-- The rule of a constraint function permits what the function permits. -/
theorem funRule_permits (g : CGrammar) (c : FunConstraint) (op : Sym) (before : List Str) (B : Str)
    (k : Forest) (hl : g.Legal B k.heads) :
    (funRule g c).Permits op before B k ↔ c.Permits g.noneOp op before B k := by
  have hm : (⟨B, k.heads⟩ : Production) ∈ g.productions B := by
    unfold Grammar.productions
    rw [List.mem_filter]
    exact ⟨hl, by simp⟩
  constructor
  · rintro ⟨st, na, st', h1, h2, h3, h4⟩
    obtain ⟨d, hd, hle, rfl⟩ := (funAt g c op before st).1 h1
    obtain ⟨b, hb, rfl⟩ := (funNotAllowed_iff g c op _ _ B na).1 h2
    have hlt : before.length < d.length := by
      have h4 : funUpdate _ _ = some st' := h4
      unfold funUpdate at h4
      split_ifs at h4 with h5
      simp only [List.length_append, List.length_map, List.length_drop] at h5
      omega
    refine ⟨b, ⟨d, hd, hlt, hb⟩, ?_⟩
    intro hf s hs he
    exact h3 (mem_notAllowedProds.2 ⟨hm, hf, s, hs, he⟩)
  · rintro ⟨b, ⟨d, hd, hlt, hb⟩, hf⟩
    refine ⟨_, _, ((before.map some ++ d.drop before.length).set before.length
      (some (treeText B k)), before.length + 1), (funAt g c op before _).2 ⟨d, hd, by omega, rfl⟩,
      (funNotAllowed_iff g c op _ _ B _).2 ⟨b, hb, rfl⟩, ?_, ?_⟩
    · intro h
      obtain ⟨_, h1, s, h2, h3⟩ := mem_notAllowedProds.1 h
      exact hf h1 s h2 h3
    · show funUpdate _ _ = _
      unfold funUpdate
      rw [if_pos (by simp; omega)]
      rfl

theorem objFold (c : ObjConstraint) (before : List Str) : ∀ x₀ : c.State,
    before.foldlM (objUpdate c) (some x₀) = (before.foldlM c.update x₀).map some := by
  induction before with
  | nil => intro x₀; rfl
  | cons s l ih =>
    intro x₀
    simp only [List.foldlM_cons, objUpdate]
    cases h : c.update x₀ s with
    | none => rfl
    | some x => simpa using ih x

/-- The rule of a constraint object permits what the object permits. -/
theorem objRule_permits (g : CGrammar) (c : ObjConstraint) (op : Sym) (before : List Str) (B : Str)
    (k : Forest) : (objRule g c).Permits op before B k ↔ c.Permits g.toGrammar op before B k := by
  have hat : ∀ st : Option c.State, (objRule g c).At op before = some st ↔
      ∃ y, c.start op = some y ∧ before.foldlM (objUpdate c) y = some st := by
    intro st
    change ((c.start op).bind fun y => before.foldlM (objUpdate c) y) = some st ↔ _
    exact Option.bind_eq_some_iff
  have hnone : ∀ x, before.foldlM (objUpdate c) none ≠ some (some x) := by
    intro x h
    cases before with
    | nil =>
      have : (none : Option c.State) = some x := Option.some.inj h
      cases this
    | cons s l => simp [List.foldlM_cons, objUpdate] at h
  constructor
  · rintro ⟨st, na, st', h1, h2, h3, h4⟩
    obtain ⟨y, h5, h6⟩ := (hat st).1 h1
    have h2 : objNotAllowed g c st B = some na := h2
    have h4 : objUpdate c st (treeText B k) = some st' := h4
    cases st with
    | none => simp [objUpdate] at h4
    | some x =>
      cases y with
      | none => exact absurd h6 (hnone x)
      | some x₀ =>
        rw [objFold] at h6
        obtain ⟨x1, h8, h7⟩ := Option.map_eq_some_iff.1 h6
        obtain rfl : x1 = x := Option.some.inj h7
        unfold objUpdate at h4
        obtain ⟨x', h4, _⟩ := Option.map_eq_some_iff.1 h4
        exact ⟨x1, na, ⟨x₀, h5, h8⟩, h2, h3, by rw [h4]; rfl⟩
  · rintro ⟨x, na, ⟨x₀, h5, h6⟩, h2, h3, h4⟩
    obtain ⟨x', h4⟩ := Option.isSome_iff_exists.1 h4
    refine ⟨some x, na, some x', (hat _).2 ⟨some x₀, h5, ?_⟩, h2, h3, ?_⟩
    · rw [objFold, h6]; rfl
    · change (c.update x (treeText B k)).map some = _
      rw [h4]
      rfl

/-! ## Prior -/

/-- The productions and the probabilities that are kept belong together. -/
theorem kept_aligned {α β : Type} [DecidableEq α] {xs na : List α} {ps : List β} {i : ℕ} {x : α}
    {q : β} (hlen : ps.length = xs.length) (hna : ∀ a ∈ na, a ∈ xs)
    (hl : (((List.range ps.length).filter (· ∉ na.map xs.idxOf)).filterMap (ps[·]?)).length =
      (xs.filter (· ∉ na)).length)
    (hx : (xs.filter (· ∉ na))[i]? = some x)
    (hq : (((List.range ps.length).filter (· ∉ na.map xs.idxOf)).filterMap (ps[·]?))[i]? = some q) :
    ∃ j : ℕ, xs[j]? = some x ∧ ps[j]? = some q := by
  have hmap : ∀ (l : List ℕ) {γ : Type} (ys : List γ), (∀ j ∈ l, j < ys.length) →
      (l.filterMap (ys[·]?)).length = l.length ∧
      ∀ (i : ℕ) (y : γ), (l.filterMap (ys[·]?))[i]? = some y →
        ∃ j, l[i]? = some j ∧ ys[j]? = some y := by
    intro l
    induction l with
    | nil => intro γ ys _; simp
    | cons a l ih =>
      intro γ ys h
      have ha := h a (by simp)
      obtain ⟨h1, h2⟩ := ih ys (fun j hj => h j (by simp [hj]))
      have e : ys[a]? = some ys[a] := List.getElem?_eq_getElem ha
      rw [List.filterMap_cons, e]
      refine ⟨by simp [h1], ?_⟩
      intro i y hy
      cases i with
      | zero => exact ⟨a, by simp, by rw [e]; simpa using hy⟩
      | succ i => simpa using h2 i y (by simpa using hy)
  have hself : ∀ (ys : List α) (P : α → Bool), ys.filter P =
      ((List.range ys.length).filter fun j => (ys[j]?).any P).filterMap (ys[·]?) := by
    intro ys P
    induction ys using List.reverseRecOn with
    | nil => rfl
    | append_singleton l a ih =>
      rw [List.filter_append, ih, List.length_append, List.length_singleton, List.range_succ,
        List.filter_append, List.filterMap_append]
      congr 1
      · have e1 : ((List.range l.length).filter fun j => ((l ++ [a])[j]?).any P) =
            (List.range l.length).filter fun j => (l[j]?).any P := by
          apply List.filter_congr
          intro j hj
          rw [List.getElem?_append_left (List.mem_range.1 hj)]
        rw [e1]
        apply List.filterMap_congr
        intro j hj
        rw [List.getElem?_append_left (List.mem_range.1 (List.mem_filter.1 hj).1)]
      · by_cases h : P a
        · simp [h]
        · simp [h]
  set l1 := (List.range ps.length).filter (· ∉ na.map xs.idxOf) with hl1
  set l2 := (List.range xs.length).filter fun j => (xs[j]?).any (· ∉ na) with hl2
  have hsub : l2.Sublist l1 := by
    rw [hl1, hl2, hlen]
    apply List.monotone_filter_right
    intro j hj
    simp only [decide_eq_true_eq, List.mem_map, not_exists, not_and]
    intro a ha he
    have hm := hna a ha
    have hget : xs[j]? = some a := by
      rw [← he, List.getElem?_eq_getElem (List.idxOf_lt_length_iff.2 hm)]
      simp
    rw [hget] at hj
    simp [ha] at hj
  have hb1 : ∀ j ∈ l1, j < ps.length := fun j hj => List.mem_range.1 (List.mem_filter.1 hj).1
  have hb2 : ∀ j ∈ l2, j < xs.length := fun j hj => List.mem_range.1 (List.mem_filter.1 hj).1
  obtain ⟨n1, g1⟩ := hmap l1 ps hb1
  obtain ⟨n2, g2⟩ := hmap l2 xs hb2
  rw [hself xs (· ∉ na)] at hx hl
  rw [n1, n2] at hl
  have heq : l2 = l1 := hsub.eq_of_length hl.symm
  obtain ⟨j, e1, e2⟩ := g1 i q hq
  obtain ⟨j', e3, e4⟩ := g2 i x hx
  rw [heq, e1] at e3
  obtain rfl := Option.some.inj e3
  exact ⟨j, e4, e2⟩

end Verif.Gram
