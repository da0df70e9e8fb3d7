import Verif.Grammar.CPriorSpec
import Verif.Grammar.PriorProps
import Verif.Grammar.ConstrainedRule

/-!
# Lemmas on `ConstrainedGrammar.compute_prior`
-/

namespace Verif.Gram

/-! ## Reading one symbol -/

theorem find_down {P : ℕ → Bool} {m : ℕ} (hm : 1 ≤ m) (hP : P m = true)
    (hn : ∀ j, m < j → P j = false) (n : ℕ) (h : m ≤ n) :
    (((List.range n).map (· + 1)).reverse).find? P = some m := by
  induction n with
  | zero => omega
  | succ n ih =>
    rw [List.range_succ, List.map_append, List.reverse_append]
    simp only [List.map_cons, List.map_nil, List.reverse_cons, List.reverse_nil, List.nil_append,
      List.cons_append, List.find?_cons]
    rcases Nat.lt_or_ge m (n + 1) with h' | h'
    · rw [hn _ h']
      exact ih (by omega)
    · have e : n + 1 = m := by omega
      rw [e, hP]

theorem length_le_longest {g : Grammar} {s : Str} (hs : s ∈ g.symbols) : s.length ≤ g.longest := by
  unfold Grammar.longest
  have : s.length ∈ g.symbols.map List.length := List.mem_map_of_mem hs
  generalize g.symbols.map List.length = l at this
  induction l with
  | nil => simp at this
  | cons a l ih =>
    rcases List.mem_cons.1 this with h | h
    · rw [h]; exact le_max_left _ _
    · exact (ih h).trans (le_max_right _ _)

theorem Grammar.Readable.clear {g : Grammar} (hg : g.Readable) {t : Str} (ht : t ∈ g.symbols) :
    ' ' ∉ t ∧ ')' ∉ t := by
  rcases mem_symbols.1 ht with ⟨p, hp, rfl⟩ | ⟨p, hp, x, hx, rfl⟩
  · exact ⟨(hg.lhs p hp).1, (hg.lhs p hp).2.2.1⟩
  · cases x with
    | nt B =>
      obtain ⟨q, hq, rfl⟩ := hg.defined p hp B hx
      exact ⟨(hg.lhs q hq).1, (hg.lhs q hq).2.2.1⟩
    | t s => exact ⟨(hg.rhs p hp s hx).1, (hg.rhs p hp s hx).2.2.1⟩

theorem Grammar.Readable.cread {g : Grammar} (hg : g.Readable) {s b : Str} {c : Char}
    (hs : s ∈ g.symbols) (hne : s ≠ []) (hc : c = ' ' ∨ c = ')') :
    cLongestMatch g (s ++ c :: b) = some s := by
  unfold cLongestMatch
  rw [find_down (m := s.length) (List.length_pos_iff.2 hne)]
  · simp
  · simpa using hs
  · intro j hj
    rw [decide_eq_false_iff_not]
    intro hm
    have hcm : c ∈ (s ++ c :: b).take j := by
      rw [List.take_append, List.mem_append]
      right
      obtain ⟨k, hk⟩ : ∃ k, j - s.length = k + 1 := ⟨j - s.length - 1, by omega⟩
      rw [hk]
      simp
    obtain ⟨h1, h2⟩ := hg.clear hm
    rcases hc with rfl | rfl
    · exact h1 hcm
    · exact h2 hcm
  · have := length_le_longest hs
    simp only [List.length_append, List.length_cons]
    omega

/-! ## The probabilities that are kept -/

theorem kept_eq {α β : Type} [DecidableEq α] (xs : List α) (hnd : xs.Nodup) (P : α → Bool)
    (f : α → β) :
    ((List.range (xs.map f).length).filter (· ∉ (xs.filter P).map xs.idxOf)).filterMap
      ((xs.map f)[·]?) = (xs.filter (· ∉ xs.filter P)).map f := by
  have h1 : ∀ j (hj : j < xs.length), (j ∈ (xs.filter P).map xs.idxOf ↔ P xs[j]) := by
    intro j hj
    rw [List.mem_map]
    constructor
    · rintro ⟨a, ha, rfl⟩
      rw [List.mem_filter] at ha
      simpa using ha.2
    · intro h
      exact ⟨xs[j], List.mem_filter.2 ⟨List.getElem_mem hj, h⟩, hnd.idxOf_getElem j hj⟩
  have h2 : (List.range (xs.map f).length).filter (· ∉ (xs.filter P).map xs.idxOf) =
      (List.range xs.length).filter (fun j => (xs[j]?).any fun a => !P a) := by
    rw [List.length_map]
    apply List.filter_congr
    intro j hj
    have hj' := List.mem_range.1 hj
    rw [List.getElem?_eq_getElem hj', Bool.eq_iff_iff]
    simp [h1 j hj']
  have h3 : xs.filter (· ∉ xs.filter P) = xs.filter (fun a => !P a) := by
    apply List.filter_congr
    intro a ha
    rw [Bool.eq_iff_iff]
    simp [List.mem_filter, ha]
  have h4 : ∀ (ys : List α) (Q : α → Bool), (ys.filter Q).map f =
      ((List.range ys.length).filter fun j => (ys[j]?).any Q).filterMap ((ys.map f)[·]?) := by
    intro ys Q
    induction ys using List.reverseRecOn with
    | nil => rfl
    | append_singleton l a ih =>
      rw [List.filter_append, List.map_append, ih, List.length_append, List.length_singleton,
        List.range_succ, List.filter_append, List.filterMap_append]
      congr 1
      · have e1 : ((List.range l.length).filter fun j => ((l ++ [a])[j]?).any Q) =
            (List.range l.length).filter fun j => (l[j]?).any Q := by
          apply List.filter_congr
          intro j hj
          rw [List.getElem?_append_left (List.mem_range.1 hj)]
        rw [e1]
        apply List.filterMap_congr
        intro j hj
        have := List.mem_range.1 (List.mem_filter.1 hj).1
        rw [List.map_append, List.getElem?_append_left (by simpa using this)]
      · by_cases h : Q a
        · simp [h]
        · simp [h]
  rw [h2, h3, h4]

theorem moved_index {α : Type} [DecidableEq α] (xs : List α) (hnd : xs.Nodup) (P : α → Bool)
    {x : α} (hx : x ∈ xs) (hP : P x = false) :
    (xs.filter (· ∉ xs.filter P))[xs.idxOf x -
      ((xs.filter P).map xs.idxOf).countP (· < xs.idxOf x)]? = some x := by
  have h3 : xs.filter (· ∉ xs.filter P) = xs.filter (fun a => !P a) := by
    apply List.filter_congr
    intro a ha
    rw [Bool.eq_iff_iff]
    simp [List.mem_filter, ha]
  rw [h3]
  obtain ⟨l1, l2, rfl, hn⟩ := List.eq_append_cons_of_mem hx
  have hi : (l1 ++ x :: l2).idxOf x = l1.length := by
    rw [List.idxOf_append_of_notMem hn]
    simp
  have hcount : (((l1 ++ x :: l2).filter P).map (l1 ++ x :: l2).idxOf).countP (· < l1.length) =
      (l1.filter P).length := by
    rw [List.countP_map, List.filter_append, List.countP_append, List.filter_cons_of_neg (by simp [hP])]
    have e1 : List.countP ((fun x => decide (x < l1.length)) ∘ (l1 ++ x :: l2).idxOf)
        (l1.filter P) = (l1.filter P).length := by
      rw [List.countP_eq_length]
      intro a ha
      have ha := (List.mem_filter.1 ha).1
      simp only [Function.comp, decide_eq_true_eq]
      rw [List.idxOf_append_of_mem ha]
      exact List.idxOf_lt_length_iff.2 ha
    have e2 : List.countP ((fun x => decide (x < l1.length)) ∘ (l1 ++ x :: l2).idxOf)
        (l2.filter P) = 0 := by
      rw [List.countP_eq_zero]
      intro a ha
      have ha := (List.mem_filter.1 ha).1
      have hna : a ∉ l1 := by
        intro h
        exact (List.nodup_append.1 hnd).2.2 a h a (by simp [ha]) rfl
      simp only [Function.comp, decide_eq_true_eq]
      rw [List.idxOf_append_of_notMem hna]
      omega
    rw [e1, e2]
    rfl
  rw [hi, hcount, List.filter_append]
  have hlen : l1.length - (l1.filter P).length = (l1.filter fun a => !P a).length := by
    have := List.length_eq_length_filter_add (l := l1) P
    omega
  rw [hlen, List.getElem?_append_right (le_refl _), Nat.sub_self,
    List.filter_cons_of_pos (by simp [hP])]
  rfl

end Verif.Gram
