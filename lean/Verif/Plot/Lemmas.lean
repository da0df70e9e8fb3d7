import Verif.Plot.Spec
import Mathlib.Data.List.Lex
import Mathlib.Data.List.Sort
import Mathlib.Tactic.Linarith

/-! # Lemmas on the order of ids and on running minima and sums -/

namespace Neps.Plot

open Neps.Ids

/-! ## Order of decimal numerals -/

theorem digitChar_lt {a b : ℕ} (hb : b < 10) (h : a < b) : digitChar a < digitChar b := by
  have : ∀ b : Fin 10, ∀ a : Fin 10, a < b → digitChar a.val < digitChar b.val := by decide
  exact this ⟨b, hb⟩ ⟨a, by omega⟩ h

theorem lt_append {a b : List Char} (x y : List Char) (hl : a.length = b.length) (h : a < b) :
    a ++ x < b ++ y := by
  induction a generalizing b with
  | nil => cases b with
    | nil => simp at h
    | cons => simp at hl
  | cons c a ih => cases b with
    | nil => simp at hl
    | cons d b =>
      simp only [List.cons_append, List.cons_lt_cons_iff] at h ⊢
      rcases h with h | ⟨h1, h2⟩
      · exact Or.inl h
      · exact Or.inr ⟨h1, ih (by simpa using hl) h2⟩

theorem append_lt (a : List Char) {x y : List Char} (h : x < y) : a ++ x < a ++ y := by
  induction a with
  | nil => exact h
  | cons c a ih =>
    simp only [List.cons_append, List.cons_lt_cons_iff]
    exact Or.inr ⟨trivial, ih⟩

theorem natStr_small {n : ℕ} (h : n < 10) : natStr n = [digitChar n] := by
  rw [natStr, dif_pos h]

theorem natStr_big {n : ℕ} (h : ¬ n < 10) :
    natStr n = natStr (n / 10) ++ [digitChar (n % 10)] := by
  rw [natStr, dif_neg h]

theorem natStr_lt (m : ℕ) : ∀ n, n < m → (natStr n).length < (natStr m).length ∨
    ((natStr n).length = (natStr m).length ∧ natStr n < natStr m) := by
  induction m using Nat.strong_induction_on with
  | _ m ih =>
    intro n hn
    by_cases hm : m < 10
    · rw [natStr_small hm, natStr_small (by omega : n < 10)]
      refine Or.inr ⟨rfl, ?_⟩
      rw [List.cons_lt_cons_iff]
      exact Or.inl (digitChar_lt hm hn)
    · rw [natStr_big hm]
      by_cases hn' : n < 10
      · rw [natStr_small hn']
        left
        have := List.length_pos_iff.2 (natStr_ne_nil (m / 10))
        simp only [List.length_append, List.length_singleton]
        omega
      · rw [natStr_big hn']
        simp only [List.length_append, List.length_singleton]
        rcases Nat.lt_or_ge (n / 10) (m / 10) with hd | hd
        · rcases ih (m / 10) (by omega) (n / 10) hd with h | ⟨h1, h2⟩
          · exact Or.inl (by omega)
          · exact Or.inr ⟨by omega, lt_append _ _ h1 h2⟩
        · have he : n / 10 = m / 10 := by
            have := Nat.div_le_div_right (c := 10) hn.le
            omega
          rw [he]
          refine Or.inr ⟨rfl, append_lt _ ?_⟩
          rw [List.cons_lt_cons_iff]
          exact Or.inl (digitChar_lt (by omega) (by omega))

theorem num_natStr {e : Entry} {n : ℕ} (h : e.id = natStr n) : num e = n := by
  unfold num
  rw [h, pyInt_natStr]
  rfl

/-! ## The order of the trials -/

/-- Shorter ids first, then alphabetically. -/
def idLe (a b : Entry) : Prop :=
  a.id.length < b.id.length ∨ (a.id.length = b.id.length ∧ a.id ≤ b.id)

theorem sortStats_perm (l : List Entry) : (sortStats l).Perm l :=
  (List.perm_insertionSort _ _).trans (List.perm_insertionSort _ _)

theorem orderedInsert_idLe (a : Entry) (l : List Entry) (hl : l.Pairwise idLe)
    (ha : ∀ x ∈ l, a.id ≤ x.id) :
    (l.orderedInsert (fun a b => a.id.length ≤ b.id.length) a).Pairwise idLe := by
  induction l with
  | nil => simp
  | cons b l ih =>
    simp only [List.orderedInsert]
    obtain ⟨hb, hl'⟩ := List.pairwise_cons.1 hl
    split
    · rename_i hab
      refine List.pairwise_cons.2 ⟨?_, hl⟩
      intro x hx
      have hbx : b.id.length ≤ x.id.length := by
        rcases List.mem_cons.1 hx with rfl | hx'
        · exact le_rfl
        · rcases hb x hx' with h | h
          · exact h.le
          · exact h.1.le
      rcases Nat.lt_or_ge a.id.length x.id.length with h | h
      · exact Or.inl h
      · exact Or.inr ⟨by omega, ha x hx⟩
    · rename_i hab
      refine List.pairwise_cons.2 ⟨?_, ih hl' (fun x hx => ha x (List.mem_cons_of_mem _ hx))⟩
      intro x hx
      rcases List.mem_cons.1 ((List.perm_orderedInsert _ _ _).mem_iff.1 hx) with rfl | hx'
      · exact Or.inl (by omega)
      · exact hb x hx'

theorem insertionSort_idLe (l : List Entry) (h : l.Pairwise (fun a b => a.id ≤ b.id)) :
    (l.insertionSort (fun a b => a.id.length ≤ b.id.length)).Pairwise idLe := by
  induction l with
  | nil => simp
  | cons a l ih =>
    obtain ⟨h1, h2⟩ := List.pairwise_cons.1 h
    rw [List.insertionSort_cons]
    exact orderedInsert_idLe a _ (ih h2)
      (fun x hx => h1 x ((List.perm_insertionSort _ _).mem_iff.1 hx))

theorem sortStats_idLe (l : List Entry) : (sortStats l).Pairwise idLe := by
  apply insertionSort_idLe
  have : Std.Total (fun a b : Entry => a.id ≤ b.id) := ⟨fun a b => List.le_total _ _⟩
  have : IsTrans Entry (fun a b : Entry => a.id ≤ b.id) := ⟨fun a b c => List.le_trans⟩
  exact List.pairwise_insertionSort _ _

theorem sortStats_sorted {l : List Entry} (h : Complete l) :
    (sortStats l).Pairwise (fun a b => num a < num b) := by
  have hd : ((sortStats l).map Entry.id).Nodup :=
    ((sortStats_perm l).map _).nodup_iff.2 h.distinct
  have h1 := (sortStats_idLe l)
  have h2 : (sortStats l).Pairwise (fun a b => a.id ≠ b.id) := by
    rw [List.Nodup, List.pairwise_map] at hd
    exact hd
  refine (h1.and h2).imp_of_mem ?_
  intro a b ha hb ⟨hab, hne⟩
  obtain ⟨n, hn⟩ := h.numbered a ((sortStats_perm l).mem_iff.1 ha)
  obtain ⟨m, hm⟩ := h.numbered b ((sortStats_perm l).mem_iff.1 hb)
  rw [num_natStr hn, num_natStr hm]
  by_contra hlt
  have hmn : m < n := by
    rcases Nat.lt_or_ge m n with h | h
    · exact h
    · exact absurd (by rw [hn, hm, le_antisymm (not_lt.1 hlt) h]) hne
  unfold idLe at hab
  rw [hn, hm] at hab
  rcases natStr_lt n m hmn with h | ⟨h3, h4⟩
  · rcases hab with h' | h' <;> omega
  · rcases hab with h' | h'
    · omega
    · exact absurd h'.2 (List.not_le.2 h4)

/-! ## Running minima and sums -/

@[simp] theorem minAcc_length (l : List ℚ) : (minAcc l).length = l.length := by
  induction l with
  | nil => rfl
  | cons a l ih => simp [minAcc, ih]

@[simp] theorem cumsum_length (l : List ℚ) : (cumsum l).length = l.length := by
  induction l with
  | nil => rfl
  | cons a l ih => simp [cumsum, ih]

theorem minAcc_spec (l : List ℚ) : ∀ (k : ℕ) (b : ℚ), (minAcc l)[k]? = some b →
    b ∈ l.take (k + 1) ∧ ∀ x ∈ l.take (k + 1), b ≤ x := by
  induction l with
  | nil => intro k b h; simp [minAcc] at h
  | cons a l ih =>
    intro k b h
    cases k with
    | zero =>
      simp [minAcc] at h
      simp [h]
    | succ k =>
      simp only [minAcc, List.getElem?_cons_succ, List.getElem?_map, Option.map_eq_some_iff] at h
      obtain ⟨c, hc, rfl⟩ := h
      obtain ⟨h1, h2⟩ := ih k c hc
      rw [List.take_succ_cons]
      constructor
      · rcases le_total a c with h | h
        · rw [min_eq_left h]; exact List.mem_cons_self
        · rw [min_eq_right h]; exact List.mem_cons_of_mem _ h1
      · intro x hx
        rcases List.mem_cons.1 hx with rfl | hx
        · exact min_le_left _ _
        · exact (min_le_right _ _).trans (h2 x hx)

theorem cumsum_get (l : List ℚ) : ∀ (k : ℕ), k < l.length →
    (cumsum l)[k]? = some (l.take (k + 1)).sum := by
  induction l with
  | nil => intro k h; simp at h
  | cons a l ih =>
    intro k h
    cases k with
    | zero => simp [cumsum]
    | succ k =>
      simp only [cumsum, List.getElem?_cons_succ, List.getElem?_map, List.take_succ_cons,
        List.sum_cons]
      rw [ih k (by simpa using h)]
      rfl

theorem cumsum_pos {l : List ℚ} (h : ∀ x ∈ l, 0 < x) : ∀ x ∈ cumsum l, 0 < x := by
  induction l with
  | nil => simp [cumsum]
  | cons a l ih =>
    intro x hx
    have ha := h a List.mem_cons_self
    rcases List.mem_cons.1 hx with rfl | hx
    · exact ha
    · obtain ⟨y, hy, rfl⟩ := List.mem_map.1 hx
      have := ih (fun z hz => h z (List.mem_cons_of_mem _ hz)) y hy
      linarith

theorem cumsum_sorted {l : List ℚ} (h : ∀ x ∈ l, 0 < x) : (cumsum l).Pairwise (· < ·) := by
  induction l with
  | nil => simp [cumsum]
  | cons a l ih =>
    have hl : ∀ x ∈ l, 0 < x := fun z hz => h z (List.mem_cons_of_mem _ hz)
    refine List.pairwise_cons.2 ⟨?_, ?_⟩
    · intro x hx
      obtain ⟨y, hy, rfl⟩ := List.mem_map.1 hx
      have := cumsum_pos hl y hy
      linarith
    · rw [List.pairwise_map]
      exact (ih hl).imp (fun h => by linarith)

/-! ## Interpolation -/

theorem lookup_none {c : List (ℚ × ℚ)} {x : ℚ} (h : x ∉ c.map Prod.fst) : c.lookup x = none := by
  rw [List.lookup_eq_none_iff]
  intro p hp
  have : x ≠ p.1 := fun he => h (he ▸ List.mem_map_of_mem hp)
  simpa using this

theorem backfill_align (idx : List ℚ) : ∀ (c : List (ℚ × ℚ)), idx.Pairwise (· < ·) →
    (c.map Prod.fst).Pairwise (· < ·) → (∀ x ∈ c.map Prod.fst, x ∈ idx) →
    backfill (align idx c) = idx.map (fun x => (c.find? (fun p => x ≤ p.1)).map Prod.snd) := by
  induction idx with
  | nil => intro c _ _ _; rfl
  | cons x idx ih =>
    intro c hi hc hsub
    obtain ⟨hx, hi'⟩ := List.pairwise_cons.1 hi
    cases c with
    | nil =>
      have := ih [] hi' (by simp) (by simp)
      simp only [align, List.map_cons, List.lookup_nil, List.find?_nil, Option.map_none] at this ⊢
      simp only [backfill, this]
      cases idx <;> simp
    | cons p c =>
      obtain ⟨k, v⟩ := p
      simp only [List.map_cons] at hc
      obtain ⟨hk, hc'⟩ := List.pairwise_cons.1 hc
      by_cases hkx : k = x
      · subst hkx
        have hal : align idx ((k, v) :: c) = align idx c := by
          apply List.map_congr_left
          intro y hy
          have : y ≠ k := (hx y hy).ne'
          rw [List.lookup_cons, beq_false_of_ne this]
        have hh : align (k :: idx) ((k, v) :: c) = some v :: align idx ((k, v) :: c) := by
          simp [align, List.lookup_cons]
        rw [hh, backfill, hal, ih c hi' hc']
        · rw [List.map_cons]
          congr 1
          · simp
          · apply List.map_congr_left
            intro y hy
            rw [List.find?_cons_of_neg]
            simpa using hx y hy
        · intro y hy
          have h1 := hsub y (List.mem_cons_of_mem _ hy)
          rcases List.mem_cons.1 h1 with rfl | h1
          · exact absurd (hk y hy) (lt_irrefl _)
          · exact h1
      · have hki : k ∈ idx := by
          rcases List.mem_cons.1 (hsub k (by simp)) with h | h
          · exact absurd h hkx
          · exact h
        have hxk := hx k hki
        have hsub' : ∀ y ∈ ((k, v) :: c).map Prod.fst, y ∈ idx := by
          intro y hy
          rcases List.mem_cons.1 (hsub y hy) with rfl | h
          · rcases List.mem_cons.1 hy with h | h
            · exact absurd h.symm hkx
            · exact absurd (hk y h) (not_lt.2 hxk.le)
          · exact h
        have hn : ((k, v) :: c).lookup x = none := by
          apply lookup_none
          intro h
          exact absurd (hx x (hsub' x h)) (lt_irrefl _)
        have hih := ih ((k, v) :: c) hi' hc hsub'
        have hh : align (x :: idx) ((k, v) :: c) = none :: align idx ((k, v) :: c) := by
          simp only [align, List.map_cons, hn]
        rw [hh, backfill, hih, List.map_cons]
        congr 1
        rw [List.find?_cons_of_pos (by simpa using hxk.le)]
        cases idx with
        | nil => simp at hki
        | cons z idx =>
          have hz : z ≤ k := by
            rcases List.mem_cons.1 hki with rfl | h
            · exact le_rfl
            · exact ((List.pairwise_cons.1 hi').1 k h).le
          simp [hz]

theorem ffill_none (f : ℚ → Option ℚ) (v : ℚ) (idx : List ℚ) (h : ∀ y ∈ idx, f y = none) :
    ffill (some v) (idx.map f) = idx.map (fun _ => some v) := by
  induction idx with
  | nil => rfl
  | cons x idx ih =>
    simp only [List.map_cons, h x List.mem_cons_self, ffill]
    rw [ih (fun y hy => h y (List.mem_cons_of_mem _ hy))]

theorem ffill_spec (f : ℚ → Option ℚ) (K v : ℚ) (hK : f K = some v)
    (hlt : ∀ y, y < K → (f y).isSome) (hgt : ∀ y, K < y → f y = none) (idx : List ℚ) :
    ∀ p, idx.Pairwise (· < ·) → K ∈ idx →
    ffill p (idx.map f) = idx.map (fun x => some ((f x).getD v)) := by
  induction idx with
  | nil => intro p _ h; simp at h
  | cons x idx ih =>
    intro p hi hm
    obtain ⟨hx, hi'⟩ := List.pairwise_cons.1 hi
    by_cases h : x = K
    · subst h
      simp only [List.map_cons, hK, ffill]
      rw [ffill_none f v idx (fun y hy => hgt y (hx y hy))]
      congr 1
      apply List.map_congr_left
      intro y hy
      rw [hgt y (hx y hy)]
      rfl
    · have hm' : K ∈ idx := by
        rcases List.mem_cons.1 hm with h' | h'
        · exact absurd h'.symm h
        · exact h'
      obtain ⟨a, ha⟩ := Option.isSome_iff_exists.1 (hlt x (hx K hm'))
      simp only [List.map_cons, ha, ffill]
      rw [ih _ hi' hm']
      rfl

/-- The value of a column at a point of the common index. -/
theorem filled_get (idx : List ℚ) (c : List (ℚ × ℚ)) (hi : idx.Pairwise (· < ·))
    (hc : (c.map Prod.fst).Pairwise (· < ·)) (hsub : ∀ x ∈ c.map Prod.fst, x ∈ idx) (hne : c ≠ [])
    (i : ℕ) (x : ℚ) (hx : idx[i]? = some x) :
    ∃ (j : ℕ) (p : ℚ × ℚ), c[j]? = some p ∧ (filled idx c)[i]? = some (some p.2) ∧
      (x ≤ p.1 ∨ j + 1 = c.length) ∧ ∀ (m : ℕ) (q : ℚ × ℚ), m < j → c[m]? = some q → q.1 < x := by
  have hlen := List.length_pos_iff.2 hne
  obtain ⟨q, hq⟩ : ∃ q, c[c.length - 1]? = some q := ⟨_, List.getElem?_eq_getElem (by omega)⟩
  obtain ⟨hq0, hqe⟩ := List.getElem?_eq_some_iff.1 hq
  have hlast : ∀ p ∈ c, p = q ∨ p.1 < q.1 := by
    intro p hp
    obtain ⟨m, hm, rfl⟩ := List.mem_iff_getElem.1 hp
    rcases Nat.lt_or_ge m (c.length - 1) with h | h
    · right
      rw [List.pairwise_map] at hc
      rw [← hqe]
      exact List.pairwise_iff_getElem.1 hc _ _ _ _ h
    · left
      rw [← hqe]
      congr 1
      omega
  have hqm : q ∈ c := List.mem_of_getElem? hq
  have hfl : filled idx c = idx.map
      (fun x => some (((c.find? (fun p => x ≤ p.1)).map Prod.snd).getD q.2)) := by
    unfold filled
    rw [backfill_align idx c hi hc hsub]
    refine ffill_spec _ q.1 q.2 ?_ ?_ ?_ idx none hi (hsub _ (List.mem_map_of_mem hqm))
    · cases h : c.find? (fun p => decide (q.1 ≤ p.1)) with
      | none =>
        rw [List.find?_eq_none] at h
        exact absurd (by simp) (h q hqm)
      | some p =>
        have h1 := List.find?_some h
        rcases hlast p (List.mem_of_find?_eq_some h) with rfl | h2
        · rfl
        · simp at h1
          exact absurd h2 (not_lt.2 h1)
    · intro y hy
      rw [Option.isSome_map, List.find?_isSome]
      exact ⟨q, hqm, by simpa using hy.le⟩
    · intro y hy
      rw [Option.map_eq_none_iff, List.find?_eq_none]
      intro p hp
      rcases hlast p hp with rfl | h
      · simpa using hy
      · simpa using h.trans hy
  rw [hfl, List.getElem?_map, hx, Option.map_some]
  cases h : c.find? (fun p => decide (x ≤ p.1)) with
  | none =>
    rw [List.find?_eq_none] at h
    refine ⟨c.length - 1, q, hq, rfl, Or.inr (by omega), ?_⟩
    intro m r _ hr
    simpa using h r (List.mem_of_getElem? hr)
  | some p =>
    rw [List.find?_eq_some_iff_getElem] at h
    obtain ⟨h1, j, hj, h2, h3⟩ := h
    refine ⟨j, p, by rw [List.getElem?_eq_getElem hj, h2], rfl, Or.inl (by simpa using h1), ?_⟩
    intro m r hm hr
    obtain ⟨hm', rfl⟩ := List.getElem?_eq_some_iff.1 hr
    simpa using h3 m hm

theorem filled_length (idx : List ℚ) (c : List (ℚ × ℚ)) : (filled idx c).length = idx.length := by
  have h1 : ∀ l : List (Option ℚ), (backfill l).length = l.length := by
    intro l
    induction l with
    | nil => rfl
    | cons a l ih => cases a <;> simp [backfill, ih]
  have h2 : ∀ (l : List (Option ℚ)) p, (ffill p l).length = l.length := by
    intro l
    induction l with
    | nil => intro p; rfl
    | cons a l ih => intro p; cases a <;> simp [ffill, ih]
  rw [filled, h2, h1, align, List.length_map]

end Neps.Plot
