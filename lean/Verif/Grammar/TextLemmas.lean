import Verif.Grammar.Spec
import Mathlib.Tactic.Ring
import Mathlib.Tactic.Linarith

/-!
# Lemmas on splitting, joining and bracket counting
-/

namespace Verif.Gram

theorem splitSp_ne_nil (s : Str) : splitSp s ≠ [] := by
  cases s with
  | nil => simp [splitSp]
  | cons c cs =>
    unfold splitSp
    split_ifs
    · simp
    · split <;> simp

theorem splitSp_space (s : Str) : splitSp (' ' :: s) = [] :: splitSp s := by
  simp [splitSp]

/-- The first token is the text up to the first space. -/
theorem splitSp_append_free (a b : Str) (ha : ' ' ∉ a) :
    ∃ w ws, splitSp b = w :: ws ∧ splitSp (a ++ b) = (a ++ w) :: ws := by
  induction a with
  | nil =>
    cases h : splitSp b with
    | nil => exact absurd h (splitSp_ne_nil b)
    | cons w ws => exact ⟨w, ws, rfl, by simpa using h⟩
  | cons c cs ih =>
    have hc : c ≠ ' ' := fun h => ha (by simp [h])
    obtain ⟨w, ws, h1, h2⟩ := ih (fun h => ha (List.mem_cons_of_mem _ h))
    refine ⟨w, ws, h1, ?_⟩
    rw [List.cons_append, splitSp, if_neg hc, h2]
    rfl

theorem splitSp_append_space (u v : Str) : splitSp (u ++ ' ' :: v) = splitSp u ++ splitSp v := by
  induction u with
  | nil => simp [splitSp]
  | cons c cs ih =>
    by_cases hc : c = ' '
    · subst hc
      rw [List.cons_append, splitSp_space, ih, splitSp_space, List.cons_append]
    · rw [List.cons_append, splitSp, if_neg hc, ih]
      conv_rhs => rw [splitSp, if_neg hc]
      cases h : splitSp cs with
      | nil => exact absurd h (splitSp_ne_nil cs)
      | cons w ws => rfl

theorem splitSp_free (a : Str) (ha : ' ' ∉ a) : splitSp a = [a] := by
  obtain ⟨w, ws, h1, h2⟩ := splitSp_append_free a [] ha
  simp [splitSp] at h1
  obtain ⟨rfl, rfl⟩ := h1
  simpa using h2

theorem joinSp_cons (w : Str) (ws : List Str) (h : ws ≠ []) :
    joinSp (w :: ws) = w ++ ' ' :: joinSp ws := by
  cases ws with
  | nil => exact absurd rfl h
  | cons v vs => rfl

theorem joinSp_splitSp (s : Str) : joinSp (splitSp s) = s := by
  induction s with
  | nil => rfl
  | cons c cs ih =>
    by_cases hc : c = ' '
    · subst hc
      rw [splitSp_space, joinSp_cons _ _ (splitSp_ne_nil cs), ih]
      rfl
    · rw [splitSp, if_neg hc]
      cases h : splitSp cs with
      | nil => exact absurd h (splitSp_ne_nil cs)
      | cons w ws =>
        rw [h] at ih
        simp only
        cases ws with
        | nil => simpa [joinSp] using ih
        | cons v vs => simpa [joinSp] using ih

theorem length_splitSp (s : Str) : (splitSp s).length = s.count ' ' + 1 := by
  induction s with
  | nil => rfl
  | cons c cs ih =>
    by_cases hc : c = ' '
    · subst hc
      rw [splitSp_space]; simp [ih]
    · rw [splitSp, if_neg hc]
      cases h : splitSp cs with
      | nil => exact absurd h (splitSp_ne_nil cs)
      | cons w ws =>
        rw [h] at ih
        rw [List.count_cons_of_ne (by simpa using hc)]
        simpa using ih

/-- Past the tokens of `a`, the tokens of `a ++ b` are those of `b`. -/
theorem splitSp_append_later (a b : Str) (i : ℕ) (hi : 1 ≤ i) :
    (splitSp (a ++ b))[a.count ' ' + i]? = (splitSp b)[i]? := by
  induction a with
  | nil => simp
  | cons c cs ih =>
    by_cases hc : c = ' '
    · subst hc
      rw [List.cons_append, splitSp_space, List.count_cons_self,
        show cs.count ' ' + 1 + i = (cs.count ' ' + i) + 1 by ring, List.getElem?_cons_succ, ih]
    · rw [List.cons_append, splitSp, if_neg hc, List.count_cons_of_ne (by simpa using hc), ← ih]
      cases h : splitSp (cs ++ b) with
      | nil => exact absurd h (splitSp_ne_nil _)
      | cons w ws =>
        obtain ⟨k, hk⟩ : ∃ k, cs.count ' ' + i = k + 1 := ⟨cs.count ' ' + i - 1, by omega⟩
        rw [hk]
        rfl

theorem splitSp_mem_free (s w : Str) (h : w ∈ splitSp s) : ' ' ∉ w := by
  induction s generalizing w with
  | nil => simp [splitSp] at h; simp [h]
  | cons c cs ih =>
    by_cases hc : c = ' '
    · subst hc
      rw [splitSp_space] at h
      rcases List.mem_cons.1 h with rfl | h
      · simp
      · exact ih _ h
    · rw [splitSp, if_neg hc] at h
      cases hs : splitSp cs with
      | nil => exact absurd hs (splitSp_ne_nil cs)
      | cons v vs =>
        rw [hs] at h ih
        rcases List.mem_cons.1 h with rfl | h
        · have := ih v (by simp)
          simp [this, Ne.symm hc]
        · exact ih _ (by simp [h])

/-! ### Bracket counting -/

theorem scan_free (a b : Str) (k : ℤ) (hk : 0 < k) (h1 : '(' ∉ a) (h2 : ')' ∉ a) :
    scan (a ++ b) k = a.length + scan b k := by
  induction a with
  | nil => simp
  | cons c cs ih =>
    have hc1 : c ≠ '(' := fun h => h1 (by simp [h])
    have hc2 : c ≠ ')' := fun h => h2 (by simp [h])
    rw [List.cons_append, scan]
    simp only [hc1, hc2, if_false, if_neg (ne_of_gt hk)]
    rw [ih (fun h => h1 (by simp [h])) (fun h => h2 (by simp [h]))]
    simp; ring

/-- The names of the nodes and leaves of a forest contain no space and no bracket. -/
def Forest.Plain : Forest → Prop
  | .nil => True
  | .leaf s rest => (' ' ∉ s ∧ '(' ∉ s ∧ ')' ∉ s) ∧ Plain rest
  | .node A kids rest => (' ' ∉ A ∧ '(' ∉ A ∧ ')' ∉ A ∧ A ≠ []) ∧ Plain kids ∧ Plain rest

theorem scan_text (f : Forest) (hf : f.Plain) : ∀ (b : Str) (k : ℤ), 0 < k →
    scan (f.text ++ b) k = f.text.length + scan b k := by
  induction f with
  | nil => intro b k _; simp [Forest.text]
  | leaf s rest ih =>
    intro b k hk
    obtain ⟨⟨_, h1, h2⟩, hr⟩ := hf
    have := scan_free (' ' :: s) (rest.text ++ b) k hk (by simp [h1]) (by simp [h2])
    rw [Forest.text, List.append_assoc, this, ih hr b k hk]
    simp; ring
  | node A kids rest ihk ihr =>
    intro b k hk
    obtain ⟨⟨_, h1, h2, _⟩, hkd, hr⟩ := hf
    have e : (Forest.node A kids rest).text ++ b =
        [' '] ++ ('(' :: (A ++ (kids.text ++ (')' :: (rest.text ++ b))))) := by
      simp [Forest.text]
    rw [e, scan_free [' '] _ k hk (by decide) (by decide), scan]
    have hk1 : k + 1 ≠ 0 := by omega
    simp only [if_true, hk1, if_false]
    rw [scan_free A _ (k + 1) (by omega) h1 h2, ihk hkd _ (k + 1) (by omega), scan]
    have hk2 : k + 1 - 1 = k := by ring
    simp only [show (')' = '(') = False by decide, if_false, if_true, hk2, ne_of_gt hk]
    rw [ihr hr b k hk]
    simp [Forest.text]; ring

/-! ### `remove_subtree` -/

theorem text_cons (f : Forest) (h : f ≠ .nil) : ∃ r, f.text = ' ' :: r := by
  cases f with
  | nil => exact absurd rfl h
  | leaf s r => exact ⟨_, rfl⟩
  | node A k r => exact ⟨_, rfl⟩

theorem remove_right (A : Str) (kids : Forest) (hk : kids.Plain) (hA : ' ' ∉ A)
    (hn : kids ≠ .nil) (v : Str) : ∃ r, splitSp (treeText A kids ++ v) = ('(' :: A) :: splitSp r ∧
      '(' :: A ++ [' '] ++ r.take (scan r 1 + 1) = treeText A kids ∧
      r.drop (scan r 1 + 1) = v := by
  obtain ⟨r, hr⟩ := text_cons kids hn
  refine ⟨r ++ ')' :: v, ?_, ?_, ?_⟩
  · have e : treeText A kids ++ v = ('(' :: A) ++ ' ' :: (r ++ ')' :: v) := by
      simp [treeText, hr]
    rw [e, splitSp_append_space, splitSp_free _ (by simp [hA])]
    rfl
  all_goals
    have h1 := scan_text kids hk (')' :: v) 1 (by norm_num)
    have h0 : scan (')' :: v) 1 = 0 := by simp [scan]
    have h2 : scan (' ' :: (r ++ ')' :: v)) 1 = scan (r ++ ')' :: v) 1 + 1 := by simp [scan]
    rw [h0, hr, List.cons_append, h2] at h1
    have h3 : scan (r ++ ')' :: v) 1 = r.length := by simp at h1; omega
    have e : r ++ ')' :: v = (r ++ [')']) ++ v := by simp
    have hl : r.length + 1 = (r ++ [')']).length := by simp
    rw [h3, hl, e]
  · rw [List.take_left]; simp [treeText, hr]
  · rw [List.drop_left]

/-- `remove_subtree` with the index of a subtree in the middle of a text. -/
theorem removeSubtree_mid (u v A : Str) (kids : Forest) (hk : kids.Plain) (hA : ' ' ∉ A)
    (hn : kids ≠ .nil) :
    removeSubtree (u ++ ' ' :: (treeText A kids ++ v)) (u.count ' ' + 1) =
      some (u ++ [' '], treeText A kids, v) := by
  obtain ⟨r, h1, h2, h3⟩ := remove_right A kids hk hA hn v
  have hl := length_splitSp u
  unfold removeSubtree
  simp only [splitSp_append_space, h1]
  rw [← hl, List.take_left, joinSp_splitSp]
  have e1 : (splitSp u ++ ('(' :: A) :: splitSp r).drop ((splitSp u).length + 1) = splitSp r := by
    rw [List.drop_append]; simp
  have e2 : (splitSp u ++ ('(' :: A) :: splitSp r)[(splitSp u).length]? = some ('(' :: A) := by
    simp
  rw [e1, e2, joinSp_splitSp]
  simp only
  rw [h2, h3]

/-- `remove_subtree` with the index 0: the whole tree. -/
theorem removeSubtree_root (v A : Str) (kids : Forest) (hk : kids.Plain) (hA : ' ' ∉ A)
    (hn : kids ≠ .nil) :
    removeSubtree (treeText A kids ++ v) 0 = some ([' '], treeText A kids, v) := by
  obtain ⟨r, h1, h2, h3⟩ := remove_right A kids hk hA hn v
  unfold removeSubtree
  simp only [h1, List.take_zero, List.drop_succ_cons, List.drop_zero, joinSp_splitSp,
    List.getElem?_cons_zero, joinSp, List.nil_append]
  rw [h2, h3]

end Verif.Gram
