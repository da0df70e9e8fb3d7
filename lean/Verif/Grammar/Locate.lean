import Verif.Grammar.TextLemmas

/-!
# The tokens of a text and the nodes of its tree
-/

namespace Verif.Gram

/-- A place in a forest: the node `A` with the children `kids`, the text before and after it, and
the forest with other children at this place. -/
inductive At (A : Str) (kids : Forest) : Forest → Str → Str → (Forest → Forest) → Prop
  | here (rest : Forest) : At A kids (.node A kids rest) [] rest.text (fun k => .node A k rest)
  | leaf {f u v F} (s : Str) : At A kids f u v F →
      At A kids (.leaf s f) (' ' :: s ++ u) v (fun k => .leaf s (F k))
  | down {k u v F} (B : Str) (rest : Forest) : At A kids k u v F →
      At A kids (.node B k rest) (' ' :: '(' :: B ++ u) (v ++ ')' :: rest.text)
        (fun x => .node B (F x) rest)
  | next {f u v F} (B : Str) (k : Forest) : At A kids f u v F →
      At A kids (.node B k f) (' ' :: '(' :: B ++ k.text ++ ')' :: u) v (fun x => .node B k (F x))

theorem At.text {A kids f u v F} (h : At A kids f u v F) (k : Forest) :
    (F k).text = u ++ ' ' :: (treeText A k ++ v) := by
  induction h with
  | here rest => simp [Forest.text, treeText]
  | leaf s h ih => simp [Forest.text, ih]
  | down B rest h ih => simp [Forest.text, ih]
  | next B k' h ih => simp [Forest.text, ih]

theorem At.self {A kids f u v F} (h : At A kids f u v F) : F kids = f := by
  induction h with
  | here rest => rfl
  | leaf s h ih => simp only [ih]
  | down B rest h ih => simp only [ih]
  | next B k' h ih => simp only [ih]

theorem At.derives {ok A kids f u v F} (h : At A kids f u v F) : ∀ {syms}, Derives ok syms f →
    ∃ rhs, ok A rhs ∧ Derives ok rhs kids ∧
      ∀ rhs' k', ok A rhs' → Derives ok rhs' k' → Derives ok syms (F k') := by
  induction h with
  | here rest =>
    intro syms hd
    cases hd with
    | node ho hk hr => exact ⟨_, ho, hk, fun _ _ ho' hk' => .node ho' hk' hr⟩
  | leaf s h ih =>
    intro syms hd
    cases hd with
    | leaf hd =>
      obtain ⟨rhs, h1, h2, h3⟩ := ih hd
      exact ⟨rhs, h1, h2, fun a b c d => .leaf (h3 a b c d)⟩
  | down B rest h ih =>
    intro syms hd
    cases hd with
    | node ho hk hr =>
      obtain ⟨rhs, h1, h2, h3⟩ := ih hk
      exact ⟨rhs, h1, h2, fun a b c d => .node ho (h3 a b c d) hr⟩
  | next B k' h ih =>
    intro syms hd
    cases hd with
    | node ho hk hr =>
      obtain ⟨rhs, h1, h2, h3⟩ := ih hr
      exact ⟨rhs, h1, h2, fun a b c d => .node ho hk (h3 a b c d)⟩

theorem At.plain {A kids f u v F} (h : At A kids f u v F) (hf : f.Plain) :
    kids.Plain ∧ ' ' ∉ A := by
  induction h with
  | here rest => exact ⟨hf.2.1, hf.1.1⟩
  | leaf s h ih => exact ih hf.2
  | down B rest h ih => exact ih hf.2.1
  | next B k' h ih => exact ih hf.2.2

/-- The terminal `s` is a leaf of the forest. -/
def Forest.HasLeaf (s : Str) : Forest → Prop
  | .nil => False
  | .leaf s' rest => s' = s ∨ HasLeaf s rest
  | .node _ kids rest => HasLeaf s kids ∨ HasLeaf s rest

/-- The first token of a text consists of closing brackets. -/
def Closes (v : Str) : Prop := ∃ w ws, splitSp v = w :: ws ∧ ∀ c ∈ w, c = ')'

theorem closes_text (f : Forest) (v : Str) (hv : Closes v) : Closes (f.text ++ v) := by
  by_cases h : f = .nil
  · subst h; simpa [Forest.text] using hv
  · obtain ⟨r, hr⟩ := text_cons f h
    exact ⟨[], _, by rw [hr, List.cons_append, splitSp_space], by simp⟩

theorem closes_cons (v : Str) (hv : Closes v) : Closes (')' :: v) := by
  obtain ⟨w, ws, h1, h2⟩ := hv
  obtain ⟨w', ws', h3, h4⟩ := splitSp_append_free [')'] v (by decide)
  rw [h1] at h3
  obtain ⟨rfl, rfl⟩ := List.cons.inj h3
  exact ⟨_, _, h4, by simpa using h2⟩

theorem closes_nil : Closes [] := ⟨[], [], rfl, by simp⟩

theorem first_token (a b : Str) (ha : ' ' ∉ a) (hb : Closes b) (tok : Str)
    (h : (splitSp (a ++ b))[0]? = some tok) :
    ∃ w, tok = a ++ w ∧ ∀ c ∈ w, c = ')' := by
  obtain ⟨w, ws, h1, h2⟩ := hb
  obtain ⟨w', ws', h3, h4⟩ := splitSp_append_free a b ha
  rw [h1] at h3
  obtain ⟨rfl, rfl⟩ := List.cons.inj h3
  rw [h4] at h
  simp at h
  exact ⟨w, h.symm, h2⟩

/-- A token that is one character followed by the name of a nonterminal is the opening bracket
of a node, unless it is a terminal. -/
theorem locate (A : Str) (c : Char) (hA : ')' ∉ A) (hA' : A ≠ []) (f : Forest) :
    ∀ (v : Str) (i : ℕ), f.Plain → ¬ f.HasLeaf (c :: A) → Closes v → 1 ≤ i →
      i ≤ f.text.count ' ' → (splitSp (f.text ++ v))[i]? = some (c :: A) →
      ∃ kids u v' F, At A kids f u v' F ∧ kids ≠ .nil ∧ i = u.count ' ' + 1 := by
  induction f with
  | nil => intro v i _ _ _ h1 h2; simp [Forest.text] at h2; omega
  | leaf s rest ih =>
    intro v i hp hl hv h1 h2 ht
    have hs0 : s.count ' ' = 0 := List.count_eq_zero.2 hp.1.1
    have e : (Forest.leaf s rest).text ++ v = ' ' :: (s ++ (rest.text ++ v)) := by
      simp [Forest.text]
    rw [e, splitSp_space] at ht
    obtain ⟨i, rfl⟩ : ∃ k, i = k + 1 := ⟨i - 1, by omega⟩
    rw [List.getElem?_cons_succ] at ht
    rcases Nat.eq_zero_or_pos i with rfl | hi
    · obtain ⟨w, h3, h4⟩ := first_token s _ hp.1.1 (closes_text rest v hv) _ ht
      exfalso
      cases w with
      | nil => exact hl (Or.inl (by simpa using h3.symm))
      | cons d w =>
        have hd := h4 d (by simp)
        subst hd
        cases s with
        | nil =>
          simp at h3
          obtain ⟨_, rfl⟩ := h3
          cases A with
          | nil => exact hA' rfl
          | cons x xs =>
            have := h4 x (by simp)
            exact hA (by simp [this])
        | cons x xs =>
          simp at h3
          exact hA (by rw [h3.2]; simp)
    · have ht' := splitSp_append_later s (rest.text ++ v) i hi
      rw [hs0, Nat.zero_add] at ht'
      rw [ht'] at ht
      have h2' : i ≤ rest.text.count ' ' := by
        simp [Forest.text, hs0] at h2; omega
      obtain ⟨kids, u, v', F, hat, hne, hi'⟩ := ih v i hp.2 (fun h => hl (Or.inr h)) hv hi h2' ht
      refine ⟨kids, _, v', _, .leaf s hat, hne, ?_⟩
      simp [hs0, hi']
  | node B k rest ihk ihr =>
    intro v i hp hl hv h1 h2 ht
    have hB0 : B.count ' ' = 0 := List.count_eq_zero.2 hp.1.1
    have e : (Forest.node B k rest).text ++ v =
        ' ' :: (('(' :: B) ++ (k.text ++ (')' :: (rest.text ++ v)))) := by
      simp [Forest.text]
    have hc1 : Closes (rest.text ++ v) := closes_text rest v hv
    have hc2 : Closes (')' :: (rest.text ++ v)) := closes_cons _ hc1
    rw [e, splitSp_space] at ht
    obtain ⟨i, rfl⟩ : ∃ k, i = k + 1 := ⟨i - 1, by omega⟩
    rw [List.getElem?_cons_succ] at ht
    rcases Nat.eq_zero_or_pos i with rfl | hi
    · obtain ⟨w, h3, h4⟩ := first_token ('(' :: B) _ (by simp [hp.1.1]) (closes_text k _ hc2) _ ht
      by_cases hk : k = .nil
      · subst hk
        exfalso
        obtain ⟨w', h5, h6⟩ := first_token (('(' :: B) ++ [')']) (rest.text ++ v)
          (by simp [hp.1.1]) hc1 _ (by simpa [Forest.text] using ht)
        simp at h5
        exact hA (by rw [h5.2]; simp)
      · simp at h3
        obtain ⟨r, hr⟩ := text_cons k hk
        rw [show ('(' :: B) ++ (k.text ++ (')' :: (rest.text ++ v))) =
          ('(' :: B) ++ ' ' :: (r ++ (')' :: (rest.text ++ v))) by rw [hr]; rfl,
          splitSp_append_space, splitSp_free _ (by simp [hp.1.1])] at ht
        simp at ht
        obtain ⟨_, rfl⟩ := ht
        exact ⟨k, [], _, _, .here rest, hk, by simp⟩
    · have ht' := splitSp_append_later ('(' :: B) (k.text ++ (')' :: (rest.text ++ v))) i hi
      have hB1 : ('(' :: B).count ' ' = 0 := by simp [hB0]
      rw [hB1, Nat.zero_add] at ht'
      rw [ht'] at ht
      by_cases hik : i ≤ k.text.count ' '
      · obtain ⟨kids, u, v', F, hat, hne, hi'⟩ :=
          ihk _ i hp.2.1 (fun h => hl (Or.inl h)) hc2 hi hik ht
        refine ⟨kids, _, _, _, .down B rest hat, hne, ?_⟩
        simp [hB0, hi']
      · obtain ⟨j, rfl⟩ : ∃ j, i = k.text.count ' ' + j := ⟨i - k.text.count ' ', by omega⟩
        have hj : 1 ≤ j := by omega
        rw [splitSp_append_later _ _ _ hj] at ht
        have h5 := splitSp_append_later [')'] (rest.text ++ v) j hj
        rw [show ([')'] : Str).count ' ' = 0 by decide, Nat.zero_add] at h5
        rw [show ')' :: (rest.text ++ v) = [')'] ++ (rest.text ++ v) by rfl, h5] at ht
        have h2' : j ≤ rest.text.count ' ' := by
          simp [Forest.text, hB0] at h2; omega
        obtain ⟨kids, u, v', F, hat, hne, hi'⟩ :=
          ihr v j hp.2.2 (fun h => hl (Or.inr h)) hv hj h2' ht
        refine ⟨kids, _, _, _, .next B k hat, hne, ?_⟩
        simp [hB0, hi']; omega

/-- Brackets are balanced. -/
theorem Forest.Plain.balanced {f : Forest} (hf : f.Plain) : f.text.count '(' = f.text.count ')' := by
  induction f with
  | nil => rfl
  | leaf s rest ih =>
    have h1 : s.count '(' = 0 := List.count_eq_zero.2 hf.1.2.1
    have h2 : s.count ')' = 0 := List.count_eq_zero.2 hf.1.2.2
    simp [Forest.text, h1, h2, ih hf.2]
  | node A kids rest ihk ihr =>
    have h1 : A.count '(' = 0 := List.count_eq_zero.2 hf.1.2.1
    have h2 : A.count ')' = 0 := List.count_eq_zero.2 hf.1.2.2.1
    simp [Forest.text, h1, h2, ihk hf.2.1, ihr hf.2.2]; omega

/-! ### Clean grammars -/

theorem Derives.plain {g : Grammar}
    (hg1 : ∀ p ∈ g.prods, ' ' ∉ p.lhs ∧ '(' ∉ p.lhs ∧ ')' ∉ p.lhs ∧ p.lhs ≠ [])
    (hg2 : ∀ p ∈ g.prods, ∀ s, .t s ∈ p.rhs → ' ' ∉ s ∧ '(' ∉ s ∧ ')' ∉ s)
    {syms f} (h : Derives g.Legal syms f)
    (hs : ∀ s, .t s ∈ syms → ' ' ∉ s ∧ '(' ∉ s ∧ ')' ∉ s) : f.Plain := by
  induction h with
  | nil => trivial
  | leaf h ih => exact ⟨hs _ (by simp), ih fun s h' => hs s (by simp [h'])⟩
  | node ho _ _ ihk ihr =>
    exact ⟨hg1 _ ho, ihk (hg2 _ ho), ihr fun s h' => hs s (by simp [h'])⟩

theorem Derives.noLeaf {g : Grammar} (hg : g.Clean) {syms f} (h : Derives g.Legal syms f)
    (c : Char) (A : Str) (hA : A ∈ g.swappable) (hs : .t (c :: A) ∉ syms) :
    ¬ f.HasLeaf (c :: A) := by
  induction h with
  | nil => simp [Forest.HasLeaf]
  | leaf h ih =>
    rintro (h' | h')
    · exact hs (by simp [h'])
    · exact ih (fun h'' => hs (by simp [h''])) h'
  | node ho _ _ ihk ihr =>
    rintro (h' | h')
    · exact ihk (hg.apart _ ho c A hA) h'
    · exact ihr (fun h'' => hs (by simp [h''])) h'

theorem swappable_lhs {g : Grammar} {A : Str} (h : A ∈ g.swappable) : ∃ p ∈ g.prods, p.lhs = A := by
  simp [Grammar.swappable, Grammar.lhss] at h
  obtain ⟨⟨p, hp, rfl⟩, _⟩ := h
  exact ⟨p, hp, rfl⟩

theorem mem_indicesOf {tree : Str} {p : Str → Bool} {i : ℕ} :
    i ∈ indicesOf tree p ↔ ∃ w, (splitSp tree)[i]? = some w ∧ p (w.drop 1) = true := by
  unfold indicesOf
  simp only [List.mem_filter, List.mem_range]
  constructor
  · rintro ⟨h, h2⟩
    rw [List.getElem?_eq_getElem h] at h2
    exact ⟨_, List.getElem?_eq_getElem h, h2⟩
  · rintro ⟨w, h, h2⟩
    exact ⟨(List.getElem?_eq_some_iff.1 h).1, by rw [h]; exact h2⟩

/-- What a subtree of a text of a tree is: where it is, and that it can be replaced. -/
structure Place (g : Grammar) (root s A : Str) (i : ℕ) where
  pre : Str
  sub : Str
  post : Str
  text : s = pre ++ sub ++ post
  legal : IsTree g A sub
  swap : ∀ sub', IsTree g A sub' → IsTree g root (pre ++ sub' ++ post)
  removed : removeSubtree s i = some (if i = 0 then [' '] else pre, sub, post)
  index : i = pre.count ' '
  root : i = 0 → pre = [] ∧ post = [] ∧ A = root
  pre_start : i ≠ 0 → ∃ r, pre = '(' :: r
  post_end : i ≠ 0 → ∃ r, post = r ++ [')']

/-- A token that names a nonterminal with several productions is a subtree. -/
theorem place_of_token {g : Grammar} (hg : g.Clean) {root s A : Str} (hs : IsTree g root s)
    {i : ℕ} {c : Char} (hA : A ∈ g.swappable) (hi : (splitSp s)[i]? = some (c :: A)) :
    Nonempty (Place g root s A i) := by
  obtain ⟨rhs, kids, hl, hd, rfl⟩ := hs
  obtain ⟨p, hp, rfl⟩ := swappable_lhs hA
  have hpl := hg.lhs p hp
  have hD : Derives g.Legal [.nt root] (.node root kids .nil) := .node hl hd .nil
  have hplain := hD.plain hg.lhs hg.rhs (by simp)
  have hnl := hD.noLeaf hg c p.lhs hA (by simp)
  have e : (Forest.node root kids .nil).text = ' ' :: treeText root kids := by
    simp [Forest.text, treeText]
  have hi1 : (splitSp ((Forest.node root kids .nil).text ++ []))[i + 1]? = some (c :: p.lhs) := by
    rw [List.append_nil, e, splitSp_space]; simpa using hi
  have hi2 : i + 1 ≤ (Forest.node root kids .nil).text.count ' ' := by
    have := (List.getElem?_eq_some_iff.1 hi).1
    rw [length_splitSp] at this
    rw [e]; simp; omega
  obtain ⟨k, u, v, F, hat, hne, hu⟩ :=
    locate p.lhs c hpl.2.2.1 hpl.2.2.2 _ [] (i + 1) hplain hnl closes_nil (by omega) hi2 hi1
  have hu' : i = u.count ' ' := by omega
  obtain ⟨rhs', hl', hd', hsw⟩ := hat.derives hD
  obtain ⟨hkp, hsp⟩ := hat.plain hplain
  have htext := hat.text k
  rw [hat.self, e] at htext
  have hswap : ∀ k' rhs'', g.Legal p.lhs rhs'' → Derives g.Legal rhs'' k' →
      ∃ s', IsTree g root s' ∧ ' ' :: s' = u ++ ' ' :: (treeText p.lhs k' ++ v) := by
    intro k' rhs'' h1 h2
    have h3 := hsw rhs'' k' h1 h2
    have h4 := hat.text k'
    generalize hF : F k' = f' at h3 h4
    cases h3 with
    | node ho hk hr =>
      cases hr
      exact ⟨_, ⟨_, _, ho, hk, rfl⟩, by rw [← h4]; simp [Forest.text, treeText]⟩
  cases hat with
  | here =>
    subst hu'
    refine ⟨⟨[], treeText p.lhs kids, [], by simp, ⟨rhs', kids, hl', hd', rfl⟩, ?_, ?_, by simp,
      fun _ => ⟨rfl, rfl, rfl⟩, fun h => absurd (by simp) h, fun h => absurd (by simp) h⟩⟩
    · intro sub' h; simpa using h
    · have := removeSubtree_root [] p.lhs kids hkp hsp hne
      simpa using this
  | down _ _ hat =>
    rename_i u v F
    have hu0 : i ≠ 0 := by rw [hu']; simp
    have ht' : treeText root kids =
        ('(' :: root ++ u) ++ ' ' :: (treeText p.lhs k ++ (v ++ ')' :: Forest.nil.text)) := by
      have := htext
      simp only [List.cons_append, List.cons.injEq, true_and] at this
      simpa using this
    refine ⟨⟨('(' :: root ++ u) ++ [' '], treeText p.lhs k, v ++ ')' :: Forest.nil.text, ?_,
      ⟨rhs', k, hl', hd', rfl⟩, ?_, ?_, ?_, fun h => absurd h hu0, fun _ => ⟨_, rfl⟩,
      fun _ => ⟨v, by simp [Forest.text]⟩⟩⟩
    · rw [ht']; simp
    · rintro sub' ⟨rhs2, k2, h1, h2, rfl⟩
      obtain ⟨s', h3, h4⟩ := hswap k2 rhs2 h1 h2
      have h5 : s' = ('(' :: root ++ u) ++ [' '] ++ treeText p.lhs k2 ++
          (v ++ ')' :: Forest.nil.text) := by
        simp only [List.cons_append, List.cons.injEq, true_and] at h4
        rw [h4]; simp
      rw [← h5]; exact h3
    · rw [if_neg hu0, ht']
      have := removeSubtree_mid ('(' :: root ++ u) (v ++ ')' :: Forest.nil.text) p.lhs k hkp hsp hne
      rw [← this]
      congr 1
      rw [hu']; simp
    · rw [hu']; simp; omega
  | next _ _ hat => cases hat

end Verif.Gram
