import Verif.Repr.RunLemmas
import Verif.Grammar.ContextLemmas

/-! # Reading the text of a tree -/

namespace Verif.Repr

open Verif.Gram (Str Func Forest splitSp closing Apart treeText)
open Verif.Arch (Graph)

variable {S : Setup} {cs : List (Str × Option Cell)}

/-- The terminals of the trees, from left to right. -/
def terms : Forest → List Str
  | .nil => []
  | .leaf s rest => s :: terms rest
  | .node _ kids rest => terms kids ++ terms rest

theorem words_append (fs gs : List Func) : words (fs ++ gs) = words fs ++ words gs := by
  induction fs with
  | nil => rfl
  | cons f fs ih => simp only [List.cons_append, words, ih, List.append_assoc]

theorem words_functions (topo : Str → Bool) (f : Forest) : words (f.functions topo) = terms f := by
  induction f with
  | nil => rfl
  | leaf s rest ih =>
    simp only [Forest.functions, terms]
    split_ifs
    · simp only [words, word, ih, List.append_nil]
    · simp only [words, word, ih, List.cons_append, List.nil_append]
  | node A kids rest ih1 ih2 => simp only [Forest.functions, terms, words_append, ih1, ih2]

mutual
theorem word_valid : ∀ (f : Func), Fits S f → ∀ w ∈ word f, w ∈ S.valid
  | .op x, hf, w, hw => by
    simp only [Fits] at hf
    simp only [word, List.mem_singleton] at hw
    exact hw ▸ hf.1
  | .comp t args, hf, w, hw => by
    simp only [Fits] at hf
    simp only [word, List.mem_cons] at hw
    rcases hw with rfl | hw
    · exact hf.1
    · exact words_valid args hf.2.2 w hw
theorem words_valid : ∀ (fs : List Func), FitsAll S fs → ∀ w ∈ words fs, w ∈ S.valid
  | [], _, w, hw => by simp [words] at hw
  | f :: fs, hf, w, hw => by
    simp only [FitsAll] at hf
    simp only [words, List.mem_append] at hw
    rcases hw with hw | hw
    · exact word_valid f hf.1 w hw
    · exact words_valid fs hf.2 w hw
end

theorem splitSp_clean (f : Forest) : f ≠ .nil → Clean f → ∀ (n : ℕ) (v : Str),
    Apart v → splitSp (f.text ++ closing n ++ v) = [] :: (f.toks n ++ (splitSp v).tail) := by
  induction f with
  | nil => intro h; exact absurd rfl h
  | leaf s r ih =>
    intro _ hs n v hv
    simp only [Clean] at hs
    by_cases hr : r = .nil
    · subst hr
      have e : (Forest.leaf s .nil).text ++ closing n ++ v = ' ' :: ((s ++ closing n) ++ v) := by
        simp [Forest.text]
      rw [e, Gram.splitSp_space, Gram.splitSp_word (by simp [hs.1.2.1]) hv]
      simp [Forest.toks]
    · have h1 := ih hr hs.2 n v hv
      have e : (Forest.leaf s r).text ++ closing n ++ v = ' ' :: (s ++ (r.text ++ closing n ++ v)) := by
        simp [Forest.text]
      have ha : Apart (r.text ++ closing n ++ v) := by
        obtain ⟨x, hx⟩ := Gram.text_cons r hr
        exact Or.inr ⟨x ++ closing n ++ v, by rw [hx]; rfl⟩
      rw [e, Gram.splitSp_space, Gram.splitSp_word hs.1.2.1 ha, h1, Gram.toks_leaf s hr]
      rfl
  | node A k r ihk ihr =>
    intro _ hs n v hv
    simp only [Clean] at hs
    obtain ⟨hA, hk, hck, hcr⟩ := hs
    have hA' : ' ' ∉ '(' :: A := by simp [hA.2.1]
    have hkt : ∀ x, Apart (k.text ++ x) := by
      intro x
      obtain ⟨y, hy⟩ := Gram.text_cons k hk
      exact Or.inr ⟨y ++ x, by rw [hy]; rfl⟩
    by_cases hr : r = .nil
    · subst hr
      have e : (Forest.node A k .nil).text ++ closing n ++ v =
          ' ' :: (('(' :: A) ++ (k.text ++ closing (n + 1) ++ v)) := by
        simp [Forest.text, closing, List.replicate_succ]
      have h1 := ihk hk hck (n + 1) v hv
      have ha : Apart (k.text ++ closing (n + 1) ++ v) := by rw [List.append_assoc]; exact hkt _
      rw [e, Gram.splitSp_space, Gram.splitSp_word hA' ha, h1]
      simp [Forest.toks]
    · have h1 := ihr hr hcr n v hv
      have ha : Apart (r.text ++ closing n ++ v) := by
        obtain ⟨x, hx⟩ := Gram.text_cons r hr
        exact Or.inr ⟨x ++ closing n ++ v, by rw [hx]; rfl⟩
      have h2 := ihk hk hck 1 _ ha
      have e : (Forest.node A k r).text ++ closing n ++ v =
          ' ' :: (('(' :: A) ++ (k.text ++ closing 1 ++ (r.text ++ closing n ++ v))) := by
        simp [Forest.text, closing, List.replicate_succ]
      have ha' : Apart (k.text ++ closing 1 ++ (r.text ++ closing n ++ v)) := by
        rw [List.append_assoc]; exact hkt _
      rw [e, Gram.splitSp_space, Gram.splitSp_word hA' ha', h2, h1, Gram.toks_node A k hr]
      simp

theorem stripClosing_clean {valid : List Str} {s : Str} (hs : Name s) (hv : ∀ v ∈ valid, ')' ∉ v) :
    ∀ n, stripClosing valid (s ++ closing n).reverse = some s
  | 0 => by
    have h0 : s.reverse ≠ [] := by simpa using hs.1
    simp only [closing, List.replicate_zero, List.append_nil]
    cases hr : s.reverse with
    | nil => exact absurd hr h0
    | cons c cs =>
      have hc : c ∈ s := by rw [← List.mem_reverse, hr]; simp
      rw [stripClosing, if_neg (by rintro ⟨rfl, _⟩; exact hs.2.2.2 hc), ← hr, List.reverse_reverse]
  | n + 1 => by
    have e : (s ++ closing (n + 1)).reverse = ')' :: (s ++ closing n).reverse := by
      rw [closing, List.replicate_succ', ← List.append_assoc, List.reverse_append]
      rfl
    rw [e, stripClosing, if_pos]
    · exact stripClosing_clean hs hv n
    · refine ⟨rfl, fun hm => hv _ hm ?_⟩
      simp

theorem token_leaf {s : Str} (hS : S.Lexical) (hs : Name s) (hv : s ∈ S.valid) (d : Draw) (n : ℕ) :
    Draw.token S cs d (s ++ closing n) = d.symbol S cs s := by
  have h1 := stripClosing_clean hs (fun v hv => (hS v hv).1.2.2.2) n
  have h2 := (hS s hv).2
  cases s with
  | nil => exact absurd rfl hs.1
  | cons c cs' =>
    have hc : c ≠ '(' := by
      rintro rfl
      exact hs.2.2.1 (by simp)
    rw [List.cons_append] at h1 ⊢
    unfold Draw.token
    simp only [if_neg hc, h1, if_neg h2, hv, true_and]
    rw [if_pos hc]

theorem token_node {A : Str} (hS : S.Lexical) (hA : Name A) (d : Draw) :
    Draw.token S cs d ('(' :: A) = some d := by
  have h1 := stripClosing_clean hA (fun v hv => (hS v hv).1.2.2.2) 0
  simp only [closing, List.replicate_zero, List.append_nil] at h1
  unfold Draw.token
  simp only [if_true, h1]
  split_ifs with h2 h3
  · rfl
  · exact absurd rfl h3.2
  · rfl

theorem fold_toks (hS : S.Lexical) (f : Forest) : f ≠ .nil → Clean f → (∀ w ∈ terms f, w ∈ S.valid) →
    ∀ (n : ℕ) (d : Draw), (f.toks n).foldlM (Draw.token S cs) d =
      (terms f).foldlM (fun s w => Draw.symbol S cs w s) d := by
  induction f with
  | nil => intro h; exact absurd rfl h
  | leaf s r ih =>
    intro _ hc hv n d
    simp only [Clean] at hc
    have hs : s ∈ S.valid := hv s (by simp [terms])
    by_cases hr : r = .nil
    · subst hr
      simp only [Forest.toks, terms, List.foldlM_cons, List.foldlM_nil, token_leaf hS hc.1 hs]
    · rw [Gram.toks_leaf s hr]
      have h1 := token_leaf (cs := cs) hS hc.1 hs d 0
      simp only [closing, List.replicate_zero, List.append_nil] at h1
      simp only [terms, List.foldlM_cons, h1]
      congr 1
      funext d'
      exact ih hr hc.2 (fun w hw => hv w (by simp [terms, hw])) n d'
  | node A k r ihk ihr =>
    intro _ hc hv n d
    simp only [Clean] at hc
    obtain ⟨hA, hk, hck, hcr⟩ := hc
    have hvk : ∀ w ∈ terms k, w ∈ S.valid := fun w hw => hv w (by simp [terms, hw])
    by_cases hr : r = .nil
    · subst hr
      simp only [Forest.toks, terms, List.foldlM_cons, token_node hS hA, List.append_nil]
      exact ihk hk hck hvk (n + 1) d
    · rw [Gram.toks_node A k hr]
      simp only [terms, List.foldlM_cons, token_node hS hA, List.foldlM_append]
      show ((k.toks 1).foldlM (Draw.token S cs) d >>= _) = _
      rw [ihk hk hck hvk 1 d]
      congr 1
      funext d'
      exact ihr hr hcr (fun w hw => hv w (by simp [terms, hw])) n d'

/-- The text of a tree is read like the sequence of its terminals. -/
theorem fold_text (hS : S.Lexical) {A : Str} {kids : Forest} (hA : Name A) (hk : kids ≠ .nil)
    (hc : Clean kids) (hv : ∀ w ∈ terms kids, w ∈ S.valid) (d : Draw) :
    (splitSp (treeText A kids)).foldlM (Draw.token S cs) d =
      (terms kids).foldlM (fun s w => Draw.symbol S cs w s) d := by
  have e : treeText A kids = ('(' :: A) ++ (kids.text ++ closing 1 ++ []) := by
    simp [treeText, closing]
  have ha : Apart (kids.text ++ closing 1 ++ []) := by
    obtain ⟨x, hx⟩ := Gram.text_cons kids hk
    exact Or.inr ⟨x ++ closing 1 ++ [], by rw [hx]; rfl⟩
  rw [e, Gram.splitSp_word (by simp [hA.2.1]) ha, splitSp_clean kids hk hc 1 [] (Or.inl rfl)]
  simp only [List.tail_cons, List.foldlM_cons, token_node hS hA]
  show List.foldlM _ d _ = _
  have : (splitSp []).tail = [] := rfl
  rw [this, List.append_nil]
  exact fold_toks hS kids hk hc hv 1 d

end Verif.Repr
