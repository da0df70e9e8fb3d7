import Verif.Sampling.Spec
import Verif.Space.DomainProps
import Batteries.Data.Nat.Lemmas
import Mathlib.Data.List.Perm.Subperm
import Mathlib.Data.List.Nodup
import Mathlib.Data.List.Range
import Mathlib.Data.Nat.Bitwise

/-!
# C43: the border sampler enumerates the corners
-/

namespace Verif.Sampling

open Verif.Space Verif.Space.Domain

/-! ## Lemmas -/

theorem arange_take (d : ℕ) : (arange d).take d = List.range d := by
  unfold arange nPossible
  rw [List.take_range, min_eq_left (Nat.lt_two_pow_self).le]

theorem and_pow (c j : ℕ) : c &&& 2 ^ j ≠ 0 ↔ c.testBit j = true := by
  rw [Nat.and_two_pow]
  cases h : c.testBit j <;> simp

/-- The coordinates of a corner are the bits of its number. -/
theorem cornerRow_eq (d c : ℕ) :
    cornerRow d c = (List.range d).map fun j => if c.testBit j then 1 else 0 := by
  unfold cornerRow
  rw [arange_take, List.map_map]
  apply List.map_congr_left
  intro j _
  simp only [Function.comp, and_pow]

theorem cornerRow_length (d c : ℕ) : (cornerRow d c).length = d := by simp [cornerRow_eq]

theorem cornerRow_inj {d a b : ℕ} (ha : a < 2 ^ d) (hb : b < 2 ^ d)
    (h : cornerRow d a = cornerRow d b) : a = b := by
  rw [cornerRow_eq, cornerRow_eq] at h
  apply Nat.eq_of_testBit_eq
  intro i
  by_cases hi : i < d
  · have h1 := congrArg (fun l => l[i]?) h
    simp only [List.getElem?_map, List.getElem?_range hi, Option.map_some, Option.some.injEq] at h1
    cases ha' : a.testBit i <;> cases hb' : b.testBit i <;> simp [ha', hb'] at h1 ⊢
  · have h2 : 2 ^ d ≤ 2 ^ i := Nat.pow_le_pow_right (by omega) (by omega)
    rw [Nat.testBit_lt_two_pow (by omega), Nat.testBit_lt_two_pow (by omega)]

/-- Every row of zeros and ones is the row of a number. -/
theorem cornerRow_surj (row : List ℝ) (h : ∀ v ∈ row, v = 0 ∨ v = 1) :
    ∃ c, c < 2 ^ row.length ∧ cornerRow row.length c = row := by
  refine ⟨Nat.ofBits fun i : Fin row.length => decide (row[i] = 1), Nat.ofBits_lt_two_pow _, ?_⟩
  rw [cornerRow_eq]
  apply List.ext_getElem
  · simp
  · intro i h1 h2
    simp only [List.getElem_map, List.getElem_range, Nat.testBit_ofBits_lt _ i h2]
    rcases h row[i] (List.getElem_mem h2) with hv | hv <;> simp [hv]

theorem toUnit_unitFloat (x : ℝ) : unitFloat.toUnit x = some x := by
  have hcu : unitFloat.card = none := by simp [unitFloat, Domain.card, card.byRound]
  unfold toUnit
  split
  · rfl
  · simp [unitFloat, fdiv, quantize, Domain.card, card.byRound]

theorem fromUnit_zero {t : Domain} (s : Shape t) : t.fromUnit 0 = some t.lower := by
  unfold fromUnit
  rw [if_neg s.not_unitFloat]
  have hq : quantize t.card 0 = some 0 := by
    cases hc : t.card with
    | none => rfl
    | some q =>
      have := quantize_bin (q := q) (k := 0) (s.card q hc) (by omega)
        (by have := s.card q hc; omega)
      simpa using this
  simp only [hq, Option.bind_eq_bind, Option.bind_some, finish_eq s, Option.pure_def]
  cases hl : t.logBounds with
  | none =>
    simp only [zero_mul, zero_add, Option.some.injEq]
    cases hr : t.round with
    | false => rfl
    | true =>
      obtain ⟨n, hn⟩ := s.lowerInt (by rw [s.isInt_round, hr])
      simp [roundIf, hn]
  | some p =>
    obtain ⟨lo, hi⟩ := p
    obtain ⟨l, u, hl0, hu0, rfl, rfl, hc⟩ := s.logs lo hi hl
    simp only [zero_mul, zero_add, Option.some.injEq, Real.exp_log hl0]
    rcases hc with ⟨hr, rfl, rfl⟩ | ⟨hr, h1, _⟩
    · simp [roundIf, hr]
    · simp [roundIf, hr, h1]

theorem fromUnit_one {t : Domain} (s : Shape t) : t.fromUnit 1 = some t.upper := by
  unfold fromUnit
  rw [if_neg s.not_unitFloat]
  have hq : quantize t.card 1 = some 1 := by
    cases hc : t.card with
    | none => rfl
    | some q =>
      have h2 := s.card q hc
      have := quantize_bin (q := q) (k := q - 1) h2 (by omega) (by omega)
      have hne : ((q - 1 : ℤ) : ℝ) ≠ 0 := by
        have : q - 1 ≠ 0 := by omega
        exact_mod_cast this
      rwa [div_self hne] at this
  simp only [hq, Option.bind_eq_bind, Option.bind_some, finish_eq s, Option.pure_def]
  cases hl : t.logBounds with
  | none =>
    simp only [one_mul, sub_add_cancel, Option.some.injEq]
    cases hr : t.round with
    | false => rfl
    | true =>
      obtain ⟨n, hn⟩ := s.upperInt (by rw [s.isInt_round, hr])
      simp [roundIf, hn]
  | some p =>
    obtain ⟨lo, hi⟩ := p
    obtain ⟨l, u, hl0, hu0, rfl, rfl, hc⟩ := s.logs lo hi hl
    simp only [one_mul, sub_add_cancel, Option.some.injEq, Real.exp_log hu0]
    rcases hc with ⟨hr, rfl, rfl⟩ | ⟨hr, _, h1⟩
    · simp [roundIf, hr]
    · simp [roundIf, hr, h1]

/-- Casting from the unit interval is `from_unit`. -/
theorem cast_unit {t : Domain} (s : Shape t) (x : ℝ) : t.cast x unitFloat = t.fromUnit x := by
  have hcu : unitFloat.card = none := by simp [unitFloat, Domain.card, card.byRound]
  have hun : ¬ unitFloat.isUnitFloat := declared_unitFloat.shape.not_unitFloat
  unfold Domain.cast
  split_ifs with h1 h3
  · obtain ⟨⟨e1, e2⟩, e3, e4⟩ := h1
    rw [hcu] at e4
    unfold fromUnit
    rw [if_neg s.not_unitFloat, e4, e3, e1, e2]
    simp [quantize, unitFloat]
  · simp [unitFloat] at h3
  · simp [toUnit_unitFloat]

/-- The corners in the unit cube and in the box. -/
theorem translate_corner (row : List ℝ) (tgt : List Domain) (hl : row.length = tgt.length)
    (hd : ∀ t ∈ tgt, Declared t) (hr : ∀ v ∈ row, v = 0 ∨ v = 1) :
    Domain.translate row (List.replicate tgt.length unitFloat) tgt =
      some (List.zipWith (fun v (t : Domain) => if v = 1 then t.upper else t.lower) row tgt) := by
  unfold Domain.translate
  rw [if_neg (by simp [hl]), if_neg (by simp [hl])]
  induction row generalizing tgt with
  | nil => cases tgt <;> simp_all
  | cons v row ih =>
    cases tgt with
    | nil => simp at hl
    | cons t tgt =>
      have s := (hd t (by simp)).shape
      have h1 := ih tgt (by simpa using hl) (fun t ht => hd t (by simp [ht]))
        (fun v hv => hr v (by simp [hv]))
      have h2 : t.cast v unitFloat = some (if v = 1 then t.upper else t.lower) := by
        rw [cast_unit s]
        rcases hr v (by simp) with rfl | rfl
        · rw [fromUnit_zero s]; simp
        · rw [fromUnit_one s]; simp
      simp only [List.length_cons, List.replicate_succ, List.zip_cons_cons, List.mapM_cons, h2, h1,
        Option.bind_eq_bind, Option.bind_some, Option.pure_def, List.zipWith_cons_cons]

/-- The corner of the box with a given number. -/
noncomputable def corner (tgt : List Domain) (c : ℕ) : List ℝ :=
  List.zipWith (fun v (t : Domain) => if v = 1 then t.upper else t.lower) (cornerRow tgt.length c) tgt

theorem cornerRow_mem (d c : ℕ) : ∀ v ∈ cornerRow d c, v = 0 ∨ v = 1 := by
  intro v hv
  rw [cornerRow_eq, List.mem_map] at hv
  obtain ⟨j, _, rfl⟩ := hv
  split <;> simp

theorem corner_isCorner (tgt : List Domain) (c : ℕ) : IsCorner tgt (corner tgt c) := by
  unfold IsCorner corner
  have : ∀ (row : List ℝ) (tgt : List Domain), row.length = tgt.length →
      List.Forall₂ (fun v (d : Domain) => v = d.lower ∨ v = d.upper)
        (List.zipWith (fun v (t : Domain) => if v = 1 then t.upper else t.lower) row tgt) tgt := by
    intro row tgt
    induction row generalizing tgt with
    | nil => intro h; cases tgt <;> simp_all
    | cons v row ih =>
      intro h
      cases tgt with
      | nil => simp at h
      | cons t tgt =>
        refine List.Forall₂.cons ?_ (ih tgt (by simpa using h))
        simp only
        split <;> simp
  exact this _ _ (cornerRow_length _ _)

/-- Different rows give different corners. -/
theorem zipWith_corner_inj {tgt : List Domain} (hd : ∀ t ∈ tgt, Declared t) {r r' : List ℝ}
    (hl : r.length = tgt.length) (hl' : r'.length = tgt.length)
    (hr : ∀ v ∈ r, v = 0 ∨ v = 1) (hr' : ∀ v ∈ r', v = 0 ∨ v = 1)
    (h : List.zipWith (fun v (t : Domain) => if v = 1 then t.upper else t.lower) r tgt =
      List.zipWith (fun v (t : Domain) => if v = 1 then t.upper else t.lower) r' tgt) : r = r' := by
  induction tgt generalizing r r' with
  | nil => simp_all
  | cons t tgt ih =>
    cases r with
    | nil => simp at hl
    | cons v r =>
      cases r' with
      | nil => simp at hl'
      | cons w r' =>
        simp only [List.zipWith_cons_cons, List.cons.injEq] at h
        have h2 := ih (fun t ht => hd t (by simp [ht])) (by simpa using hl) (by simpa using hl')
          (fun v hv => hr v (by simp [hv])) (fun v hv => hr' v (by simp [hv])) h.2
        have hlt := (hd t (by simp)).2.1
        have h1 : v = w := by
          have hh := h.1
          rcases hr v (by simp) with rfl | rfl <;> rcases hr' w (by simp) with rfl | rfl <;>
            simp at hh ⊢ <;> linarith
        rw [h1, h2]

theorem corner_inj {tgt : List Domain} (hd : ∀ t ∈ tgt, Declared t) {a b : ℕ}
    (ha : a < 2 ^ tgt.length) (hb : b < 2 ^ tgt.length) (h : corner tgt a = corner tgt b) :
    a = b :=
  cornerRow_inj ha hb (zipWith_corner_inj hd (cornerRow_length _ _) (cornerRow_length _ _)
    (cornerRow_mem _ _) (cornerRow_mem _ _) h)

theorem corner_surj {tgt : List Domain} {row : List ℝ} (h : IsCorner tgt row) :
    ∃ c, c < 2 ^ tgt.length ∧ corner tgt c = row := by
  have : ∃ bits : List ℝ, bits.length = tgt.length ∧ (∀ v ∈ bits, v = 0 ∨ v = 1) ∧
      List.zipWith (fun v (t : Domain) => if v = 1 then t.upper else t.lower) bits tgt = row := by
    unfold IsCorner at h
    induction h with
    | nil => exact ⟨[], rfl, by simp, rfl⟩
    | @cons v t row tgt hv _ ih =>
      obtain ⟨bits, h1, h2, h3⟩ := ih
      rcases hv with rfl | rfl
      · exact ⟨0 :: bits, by simp [h1], by simpa using h2, by simp [h3]⟩
      · exact ⟨1 :: bits, by simp [h1], by simpa using h2, by simp [h3]⟩
  obtain ⟨bits, h1, h2, h3⟩ := this
  obtain ⟨c, hc, hr⟩ := cornerRow_surj bits h2
  rw [h1] at hc hr
  exact ⟨c, hc, by unfold corner; rw [hr, h3]⟩

theorem border_rows (tgt : List Domain) (hd : ∀ t ∈ tgt, Declared t) (ids : List ℕ) :
    (ids.map (cornerRow tgt.length)).mapM (fun row =>
      Domain.translate row (List.replicate tgt.length unitFloat) tgt) =
      some (ids.map (corner tgt)) := by
  induction ids with
  | nil => rfl
  | cons c ids ih =>
    simp only [List.map_cons, List.mapM_cons, ih, Option.bind_eq_bind, Option.pure_def,
      translate_corner _ tgt (cornerRow_length _ _) hd (cornerRow_mem _ _), Option.bind_some]
    rfl

theorem borderIds_perm {d total : ℕ} {perm : List ℕ} (hp : perm.Perm (List.range (2 ^ d)))
    (h : total < 2 ^ d) : borderIds d total perm = some (perm.take total) := by
  unfold borderIds
  rw [if_neg (by simp only [nPossible]; omega)]
  have : ∀ l : List ℕ, (∀ i ∈ l, i < 2 ^ d) → (l.mapM fun i => (arange d)[i]?) = some l := by
    intro l
    induction l with
    | nil => intro _; rfl
    | cons i l ih =>
      intro hl
      have hi : (arange d)[i]? = some i := by
        unfold arange nPossible
        rw [List.getElem?_range (hl i (by simp))]
      simp [List.mapM_cons, hi, ih (fun j hj => hl j (by simp [hj]))]
  apply this
  intro i hi
  have := (hp.mem_iff).mp (List.mem_of_mem_take hi)
  simpa using this

/-! ## C43 -/

/-- **C43, all corners.** Asked for at least as many points as there are corners, the border
sampler returns every corner of the box of the target domains, and nothing else, exactly once. -/
theorem C43_all_corners (tgt : List Domain) (hd : ∀ t ∈ tgt, Declared t) (n : ℕ)
    (hn : 2 ^ tgt.length ≤ n) (perm : List ℕ) :
    ∃ rows, border tgt.length (.count n) tgt perm = some rows ∧ rows.length = 2 ^ tgt.length ∧
      rows.Nodup ∧ ∀ row, row ∈ rows ↔ IsCorner tgt row := by
  refine ⟨(arange tgt.length).map (corner tgt), ?_, by simp [arange, nPossible], ?_, ?_⟩
  · unfold border
    simp only [borderTotal, nPossible, min_eq_right hn, borderIds, le_refl, if_true,
      Option.bind_eq_bind, Option.bind_some, ne_eq, not_true_eq_false, if_false]
    exact border_rows tgt hd _
  · apply List.Nodup.map_on _ (List.nodup_range)
    intro a ha b hb h
    simp only [nPossible, List.mem_range] at ha hb
    exact corner_inj hd ha hb h
  · intro row
    simp only [List.mem_map, arange, nPossible, List.mem_range]
    constructor
    · rintro ⟨c, _, rfl⟩
      exact corner_isCorner tgt c
    · intro h
      exact corner_surj h

/-- **C43, some corners.** Asked for fewer points, it returns exactly that many corners, all
different, whatever permutation is drawn. -/
theorem C43_some_corners (tgt : List Domain) (hd : ∀ t ∈ tgt, Declared t) (n : ℕ)
    (hn : n < 2 ^ tgt.length) (perm : List ℕ) (hp : perm.Perm (List.range (2 ^ tgt.length))) :
    ∃ rows, border tgt.length (.count n) tgt perm = some rows ∧ rows.length = n ∧
      rows.Nodup ∧ ∀ row ∈ rows, IsCorner tgt row := by
  refine ⟨(perm.take n).map (corner tgt), ?_, ?_, ?_, ?_⟩
  · unfold border
    simp only [borderTotal, nPossible, min_eq_left hn.le, borderIds_perm hp hn,
      Option.bind_eq_bind, Option.bind_some, ne_eq, not_true_eq_false, if_false]
    exact border_rows tgt hd _
  · simp only [List.length_map, List.length_take, hp.length_eq, List.length_range]
    omega
  · apply List.Nodup.map_on _ ((hp.nodup_iff.mpr List.nodup_range).sublist (List.take_sublist _ _))
    intro a ha b hb h
    have h1 := (hp.mem_iff).mp (List.mem_of_mem_take ha)
    have h2 := (hp.mem_iff).mp (List.mem_of_mem_take hb)
    exact corner_inj hd (by simpa using h1) (by simpa using h2) h
  · intro row hr
    obtain ⟨c, _, rfl⟩ := List.mem_map.mp hr
    exact corner_isCorner tgt c

/-- **C43, any corners.** No choice of corners is impossible: every list of fewer than all
corners, without repetition, is returned for some permutation. -/
theorem C43_any_corners (tgt : List Domain) (hd : ∀ t ∈ tgt, Declared t) (rows : List (List ℝ))
    (hn : rows.Nodup) (hl : rows.length < 2 ^ tgt.length) (hc : ∀ row ∈ rows, IsCorner tgt row) :
    ∃ perm : List ℕ, perm.Perm (List.range (2 ^ tgt.length)) ∧
      border tgt.length (.count rows.length) tgt perm = some rows := by
  have hids : ∃ ids : List ℕ, ids.map (corner tgt) = rows ∧ ∀ i ∈ ids, i < 2 ^ tgt.length := by
    clear hl hn
    induction rows with
    | nil => exact ⟨[], rfl, by simp⟩
    | cons r rows ih =>
      obtain ⟨ids, h1, h2⟩ := ih (fun r hr => hc r (by simp [hr]))
      obtain ⟨c, h3, h4⟩ := corner_surj (hc r (by simp))
      exact ⟨c :: ids, by simp [h1, h4], by simpa using ⟨h3, h2⟩⟩
  obtain ⟨ids, rfl, hlt⟩ := hids
  have hnd : ids.Nodup := List.Nodup.of_map _ hn
  have hsub : List.Subperm ids (List.range (2 ^ tgt.length)) :=
    List.subperm_of_subset hnd (fun i hi => by simpa using hlt i hi)
  obtain ⟨l, hpl, hsl⟩ := hsub
  obtain ⟨rest, hrest'⟩ := hsl.exists_perm_append
  have hrest : (List.range (2 ^ tgt.length)).Perm (ids ++ rest) :=
    hrest'.trans (hpl.append_right rest)
  refine ⟨ids ++ rest, hrest.symm, ?_⟩
  have hl' : ids.length < 2 ^ tgt.length := by simpa using hl
  unfold border
  simp only [List.length_map, borderTotal, nPossible, min_eq_left hl'.le,
    borderIds_perm hrest.symm hl', Option.bind_eq_bind, Option.bind_some, ne_eq,
    not_true_eq_false, if_false, List.take_left]
  exact border_rows tgt hd _

/-- **C43, shapes.** A shape with as many points as there are corners, or fewer, is filled with
corners, all different; a shape with more points is rejected. -/
theorem C43_shape (tgt : List Domain) (hd : ∀ t ∈ tgt, Declared t) (s : List ℕ) (hs : s ≠ [])
    (perm : List ℕ) (hp : perm.Perm (List.range (2 ^ tgt.length))) :
    (s.prod ≤ 2 ^ tgt.length → ∃ rows, border tgt.length (.shape s) tgt perm = some rows ∧
      rows.length = s.prod ∧ rows.Nodup ∧ ∀ row ∈ rows, IsCorner tgt row) ∧
    (2 ^ tgt.length < s.prod → border tgt.length (.shape s) tgt perm = none) := by
  have hprod : Size.product s = some s.prod := by
    cases s with
    | nil => exact absurd rfl hs
    | cons a s =>
      simp only [Size.product, List.prod_cons, Option.some.injEq]
      clear hs
      induction s generalizing a with
      | nil => simp
      | cons b s ih => simp only [List.foldl_cons, ih, List.prod_cons]; ring
  constructor
  · intro hle
    have key : border tgt.length (.shape s) tgt perm = border tgt.length (.count s.prod) tgt perm := by
      unfold border
      simp only [borderTotal, hprod, nPossible, min_eq_left hle, Option.bind_eq_bind,
        Option.bind_some, gt_iff_lt, if_neg (not_lt.mpr hle)]
    rw [key]
    rcases lt_or_eq_of_le hle with hlt | heq
    · exact C43_some_corners tgt hd s.prod hlt perm hp
    · obtain ⟨rows, h1, h2, h3, h4⟩ := C43_all_corners tgt hd s.prod heq.ge perm
      exact ⟨rows, h1, by rw [h2, heq], h3, fun r hr => (h4 r).mp hr⟩
  · intro hlt
    unfold border
    simp [borderTotal, hprod, nPossible, hlt]

/-- A list of target domains of the wrong length is rejected. -/
theorem C43_wrong_length (d : ℕ) (n : Size) (tgt : List Domain) (perm : List ℕ)
    (h : tgt.length ≠ d) : border d n tgt perm = none := by
  unfold border
  cases borderTotal d n with
  | none => rfl
  | some total =>
    simp only [Option.bind_eq_bind, Option.bind_some, if_pos h]
    cases borderIds d total perm <;> rfl

/-- The hypotheses can be met: a learning rate on a log scale and a number of layers. -/
example : ∃ tgt : List Domain, tgt.length = 2 ∧ ∀ t ∈ tgt, Declared t := by
  obtain ⟨d, -, h, -⟩ := declared_log (l := 1) (u := 8) (by norm_num) (by norm_num)
  obtain ⟨e, -, h'⟩ := declared_integer (l := 1) (u := 4) (by norm_num)
  exact ⟨[d, e], rfl, by simp [h, h']⟩

end Verif.Sampling
