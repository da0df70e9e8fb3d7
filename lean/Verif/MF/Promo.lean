import Verif.MF.History
import Mathlib.Data.List.Range
import Mathlib.Data.List.Count

/-! # Which configurations the promotion policies select -/

namespace Neps.MF

variable {P F : Type}

/-- The entry that the synchronous policy makes for rung `r`. -/
def syncSel (b : Bracket F) (sort : Argsort) (rows : List (Row P F)) (r : Nat) : List Nat :=
  (pick (atRung rows r) (pyTake
    ((b.cap r / b.eta : Nat) - ((b.cap r : Int) - (atRung rows r).length))
    (sort (floats (atRung rows r))))).map (·.cfg)

theorem syncGo_mem {b : Bracket F} {sort : Argsort} {obj : Bool} {rows : List (Row P F)}
    (rs : List Nat) : ∀ {total : Nat} {acc ps : List (Nat × List Nat)} {r : Nat} {l : List Nat},
    syncGo b sort obj rows rs total acc = .ok ps → (r, l) ∈ ps →
      (r, l) ∈ acc ∨ ∃ pre post, rs = pre ++ r :: post ∧
        b.cap r ≤ total + ((pre ++ [r]).map (fun r' => (atRung rows r').length)).sum ∧
        (∀ x ∈ atRung rows r, x.perf.isNan = false) ∧ r ≠ b.maxR ∧ atRung rows r ≠ [] ∧
        obj = false ∧ l = syncSel b sort rows r := by
  induction rs with
  | nil =>
    intro total acc ps r l h hm
    simp only [syncGo, Except.ok.injEq] at h
    exact Or.inl (h ▸ hm)
  | cons r0 rs ih =>
    intro total acc ps r l h hm
    simp only [syncGo] at h
    have hrec : ∀ {acc'}, syncGo b sort obj rows rs (total + (atRung rows r0).length) acc' = .ok ps →
        ((r, l) ∈ acc' → (r, l) ∈ acc ∨ ∃ pre post, r0 :: rs = pre ++ r :: post ∧
          b.cap r ≤ total + ((pre ++ [r]).map (fun r' => (atRung rows r').length)).sum ∧
          (∀ x ∈ atRung rows r, x.perf.isNan = false) ∧ r ≠ b.maxR ∧ atRung rows r ≠ [] ∧
          obj = false ∧ l = syncSel b sort rows r) →
        (r, l) ∈ acc ∨ ∃ pre post, r0 :: rs = pre ++ r :: post ∧
          b.cap r ≤ total + ((pre ++ [r]).map (fun r' => (atRung rows r').length)).sum ∧
          (∀ x ∈ atRung rows r, x.perf.isNan = false) ∧ r ≠ b.maxR ∧ atRung rows r ≠ [] ∧
          obj = false ∧ l = syncSel b sort rows r := by
      intro acc' h' hacc
      rcases ih h' hm with ha | ⟨pre, post, hrs, htot, hrest⟩
      · exact hacc ha
      · right
        refine ⟨r0 :: pre, post, by rw [hrs]; rfl, ?_, hrest⟩
        simp only [List.cons_append, List.map_cons, List.sum_cons]
        omega
    split at h
    · rename_i hfull
      split at h
      · cases h
      · split at h
        · simp only [Except.ok.injEq] at h
          exact Or.inl (h ▸ hm)
        · split at h
          · exact hrec h Or.inl
          · split at h
            · cases h
            · rename_i hobj hnan hmax hne
              refine hrec h ?_
              intro ha
              rcases List.mem_cons.1 ha with ha | ha
              · right
                cases ha
                refine ⟨[], rs, rfl, by simpa using hfull, ?_, hmax, ?_, ?_, rfl⟩
                · intro x hx
                  by_contra hn
                  apply hnan
                  simp only [List.any_eq_true]
                  exact ⟨x, hx, by simpa using hn⟩
                · simpa using hne
                · cases obj with
                  | false => rfl
                  | true => simp [hne] at hobj
              · exact Or.inl ha
    · exact hrec h Or.inl

/-- Number of rows at the rungs from `r` up to the highest rung of the bracket. -/
def reached (rows : List (Row P F)) (r maxR : Nat) : Nat :=
  rows.countP (fun x => decide (r ≤ x.rung ∧ x.rung ≤ maxR))

theorem count_step (rows : List (Row P F)) (r n : Nat) :
    rows.countP (fun x => decide (r ≤ x.rung ∧ x.rung < r + n))
        + rows.countP (fun x => x.rung == r + n)
      = rows.countP (fun x => decide (r ≤ x.rung ∧ x.rung < r + (n + 1))) := by
  induction rows with
  | nil => simp
  | cons x rows ih =>
    simp only [List.countP_cons]
    by_cases h1 : r ≤ x.rung ∧ x.rung < r + n
    · have h2 : ¬ x.rung = r + n := by omega
      have h3 : r ≤ x.rung ∧ x.rung < r + (n + 1) := by omega
      simp only [h1, h2, h3, decide_true, and_self, if_true, beq_iff_eq, if_false]
      omega
    · by_cases h2 : x.rung = r + n
      · have h3 : r ≤ x.rung ∧ x.rung < r + (n + 1) := by omega
        rw [if_neg (by simpa using h1), if_pos (by simpa using h2), if_pos (by simpa using h3)]
        omega
      · have h3 : ¬ (r ≤ x.rung ∧ x.rung < r + (n + 1)) := by omega
        rw [if_neg (by simpa using h1), if_neg (by simpa using h2), if_neg (by simpa using h3)]
        omega

theorem reached_eq (rows : List (Row P F)) (r : Nat) : ∀ n,
    ((List.range' r n).map (fun r' => (atRung rows r').length)).sum
      = rows.countP (fun x => decide (r ≤ x.rung ∧ x.rung < r + n)) := by
  intro n
  induction n with
  | zero =>
    simp only [List.range'_zero, List.map_nil, List.sum_nil]
    symm
    rw [List.countP_eq_zero]
    intro x _
    simp
  | succ n ih =>
    rw [List.range'_concat, List.map_append, List.sum_append, ih, ← count_step]
    simp only [List.map_cons, List.map_nil, List.sum_cons, List.sum_nil, atRung, Nat.one_mul,
      Nat.add_zero]
    rw [← List.countP_eq_length_filter]

theorem rungsDesc_split {b : Bracket F} {pre post : List Nat} {r : Nat}
    (h : b.rungsDesc = pre ++ r :: post) :
    b.minR ≤ r ∧ r ≤ b.maxR ∧ pre ++ [r] = (List.range' r (b.maxR + 1 - r)).reverse := by
  have hr : r ∈ b.rungsDesc := by rw [h]; simp
  have hrange : b.minR ≤ r ∧ r ≤ b.maxR := by
    simp only [Bracket.rungsDesc, List.mem_reverse, List.mem_range'_1] at hr
    omega
  refine ⟨hrange.1, hrange.2, ?_⟩
  have h' : List.range' b.minR (b.maxR + 1 - b.minR) = post.reverse ++ (r :: pre.reverse) := by
    have := congrArg List.reverse h
    simp only [Bracket.rungsDesc, List.reverse_reverse, List.reverse_append, List.reverse_cons,
      List.append_assoc, List.singleton_append] at this
    exact this
  have hlen : post.length = r - b.minR := by
    have hget : (List.range' b.minR (b.maxR + 1 - b.minR))[post.length]? = some r := by
      rw [h', List.getElem?_append_right (by simp)]
      simp
    rw [List.getElem?_range'] at hget
    · simp at hget; omega
    · have := congrArg List.length h'
      simp at this
      omega
  have hsplit : List.range' b.minR (b.maxR + 1 - b.minR)
      = List.range' b.minR (r - b.minR) ++ List.range' r (b.maxR + 1 - r) := by
    have := List.range'_append (s := b.minR) (m := r - b.minR) (n := b.maxR + 1 - r) (step := 1)
    rw [show b.minR + 1 * (r - b.minR) = r by omega] at this
    rw [this]
    congr 1
    omega
  rw [hsplit] at h'
  have := (List.append_inj h' (by simp [hlen])).2
  rw [this]
  simp

/-- The entries of the synchronous policy. -/
theorem syncPromotions_mem {b : Bracket F} {sort : Argsort} {obj : Bool} {rows : List (Row P F)}
    {ps : List (Nat × List Nat)} {r : Nat} {l : List Nat}
    (h : syncPromotions b sort obj rows = .ok ps) (hm : (r, l) ∈ ps) :
    b.minR ≤ r ∧ r < b.maxR ∧ b.cap r ≤ reached rows r b.maxR ∧
      (∀ x ∈ atRung rows r, x.perf.isNan = false) ∧ atRung rows r ≠ [] ∧ obj = false ∧
      l = syncSel b sort rows r := by
  rcases syncGo_mem _ h hm with hmem | ⟨pre, post, hrs, htot, hnan, hmax, hne, hobj, hl⟩
  · cases hmem
  · obtain ⟨h1, h2, h3⟩ := rungsDesc_split hrs
    refine ⟨h1, by omega, ?_, hnan, hne, hobj, hl⟩
    have hsum : ∀ (l : List Nat) (f : Nat → Nat), (l.reverse.map f).sum = (l.map f).sum := by
      intro l f
      rw [List.map_reverse, List.sum_reverse]
    rw [h3, hsum, reached_eq] at htot
    simp only [reached]
    rw [show r + (b.maxR + 1 - r) = b.maxR + 1 by omega] at htot
    simp only [Nat.lt_succ_iff, Nat.zero_add] at htot
    exact htot

/-- Entries of the asynchronous policy. -/
theorem asyncGo_mem {eta firstR : Nat} {sort : Argsort} {rows : List (Row P F)} (rs : List Nat) :
    ∀ {ps : List (Nat × List Nat)} {r : Nat} {l : List Nat},
      asyncGo eta firstR sort rows rs = .ok ps → (r, l) ∈ ps →
      r ∈ rs ∧ l = (pyTake ((atRung rows r).length / eta : Nat)
        (pick (atRung rows r) (sort (floats (atRung rows r))))).map (·.cfg) ∧
        ((∀ x ∈ atRung rows r, x.perf ≠ .error) ∨ (∀ x ∈ atRung rows r, x.perf = .error)) := by
  induction rs with
  | nil => intro ps r l h hm; simp only [asyncGo, Except.ok.injEq] at h; subst h; cases hm
  | cons r0 rs ih =>
    intro ps r l h hm
    simp only [asyncGo] at h
    split at h
    · cases h
    · split at h
      · cases h
      · rename_i herr
        cases hrest : asyncGo eta firstR sort rows rs with
        | error e => simp [hrest] at h
        | ok rest =>
          simp only [hrest, Except.ok.injEq] at h
          subst h
          rcases List.mem_cons.1 hm with hm | hm
          · cases hm
            refine ⟨by simp, rfl, ?_⟩
            by_contra hboth
            push Not at hboth
            obtain ⟨⟨x, hx, hxe⟩, ⟨y, hy, hye⟩⟩ := hboth
            apply herr
            simp only [hasError, Bool.and_eq_true, List.any_eq_true]
            exact ⟨⟨x, hx, by simp [hxe]⟩, ⟨y, hy, by simp [hye]⟩⟩
          · obtain ⟨h1, h2⟩ := ih hrest hm
            exact ⟨by simp [h1], h2⟩

/-! ## Sorted selection -/

theorem floats_get (rows : List (Row P F)) (i : Nat) :
    (floats rows)[i]? = (rows[i]?).map Row.float := by
  simp [floats]

theorem pick_all {A : Type} {l : List A} {idx : List Nat} (h : ∀ i ∈ idx, i < l.length) :
    (pick l idx).length = idx.length := by
  induction idx with
  | nil => rfl
  | cons i idx ih =>
    have hi := h i (by simp)
    simp only [pick, List.filterMap_cons, List.getElem?_eq_getElem hi, List.length_cons]
    rw [← ih (fun j hj => h j (by simp [hj]))]
    rfl

theorem pick_take {A : Type} {l : List A} {idx : List Nat} (h : ∀ i ∈ idx, i < l.length) (k : Nat) :
    pick l (idx.take k) = (pick l idx).take k := by
  induction idx generalizing k with
  | nil => simp [pick]
  | cons i idx ih =>
    have hi := h i (by simp)
    cases k with
    | zero => simp [pick]
    | succ k =>
      simp only [pick, List.take_succ_cons, List.filterMap_cons, List.getElem?_eq_getElem hi]
      rw [show idx.filterMap (fun x => l[x]?) = pick l idx from rfl,
        ← ih (fun j hj => h j (by simp [hj])) k]
      rfl

theorem sorts_lt {sort : Argsort} (hs : Sorts sort) (xs : List PyFloat) :
    ∀ i ∈ sort xs, i < xs.length := by
  intro i hi
  have := (hs.perm xs).mem_iff.1 hi
  simpa using this

/-- Sorting the rows of a rung by performance permutes them. -/
theorem pick_perm {sort : Argsort} (hs : Sorts sort) (rows : List (Row P F)) :
    (pick rows (sort (floats rows))).Perm rows := by
  have h1 : (pick rows (sort (floats rows))).Perm (pick rows (List.range rows.length)) := by
    have := (hs.perm (floats rows))
    simp only [floats, List.length_map] at this
    exact this.filterMap _
  have h2 : pick rows (List.range rows.length) = rows := by
    apply List.ext_getElem?
    intro i
    rw [pick, filterMap_all_some]
    · by_cases hi : i < rows.length
      · simp [hi]
      · simp [hi]
    · intro a ha
      simp only [List.mem_range] at ha
      simp [ha]
  rw [h2] at h1
  exact h1

theorem pick_pairwise {A : Type} {l : List A} {R : A → A → Prop} (idx : List Nat)
    (h : idx.Pairwise (fun i j => ∀ a b, l[i]? = some a → l[j]? = some b → R a b)) :
    (pick l idx).Pairwise R := by
  induction idx with
  | nil => simp [pick]
  | cons i idx ih =>
    rw [List.pairwise_cons] at h
    have ih' := ih h.2
    simp only [pick, List.filterMap_cons]
    cases hi : l[i]? with
    | none => exact ih'
    | some a =>
      simp only
      rw [List.pairwise_cons]
      refine ⟨?_, ih'⟩
      intro b hb
      obtain ⟨j, hj, hjb⟩ := List.mem_filterMap.1 hb
      exact h.1 j hj a b hi hjb

theorem pick_sorted {sort : Argsort} (hs : Sorts sort) (rows : List (Row P F)) :
    (pick rows (sort (floats rows))).Pairwise (fun x y => sortLe x.float y.float) := by
  apply pick_pairwise
  refine (hs.sorted (floats rows)).imp ?_
  intro i j h a b ha hb
  apply h
  · simp [floats_get, ha]
  · simp [floats_get, hb]

end Neps.MF
