import Verif.Sampling.Whole
import Verif.Sampling.WeightedProps
import Verif.Sampling.PriorProps

/-!
# C133: samplers that are asked for integers
-/

namespace Verif.Sampling

open Verif.Space Verif.Space.Domain

/-- A range of integers, as integer parameters and indices of choices have it. -/
def WholeRange (t : Domain) : Prop :=
  ∃ (l u : ℤ) (cat : Bool), l < u ∧ Domain.integer l u false none cat = some t

/-- A draw from the unit interval. -/
def UnitDraw (raws : List ℝ) : Prop := ∀ x ∈ raws, 0 ≤ x ∧ x < 1

theorem WholeRange.eq {t : Domain} (h : WholeRange t) : ∃ (l u : ℤ) (cat : Bool), l < u ∧
    t = ⟨l, u, true, true, none, none, cat⟩ := by
  obtain ⟨l, u, cat, hlt, h⟩ := h
  refine ⟨l, u, cat, hlt, ?_⟩
  simp only [Domain.integer, mkLogBounds, Bool.false_eq_true, if_false, Option.bind_eq_bind,
    Option.bind_some, rnd_intCast] at h
  exact (make_eq h).symm

theorem WholeRange.declared {t : Domain} (h : WholeRange t) : Declared t := by
  obtain ⟨l, u, cat, hlt, he⟩ := h.eq
  obtain ⟨l', u', cat', hlt', h⟩ := h
  refine ⟨⟨l', u', false, none, cat', .inr h, by simp⟩, ?_, ?_⟩
  · rw [he]; simpa using hlt
  · rw [he]; simp

theorem WholeRange.isInt {t : Domain} (h : WholeRange t) : t.isInt = true := by
  obtain ⟨l, u, cat, _, rfl⟩ := h.eq
  rfl

theorem asDtype_int (b : Bool) (n : ℤ) : asDtype b (n : ℝ) = n := by
  unfold asDtype
  cases b <;> simp

theorem asDtype_unit {x : ℝ} (h : 0 ≤ x ∧ x < 1) : asDtype true x = 0 := by
  unfold asDtype
  rw [if_pos rfl, if_pos h.1]
  have : ⌊x⌋ = 0 := Int.floor_eq_iff.mpr (by simpa using h)
  simp [this]

theorem asDtype_value {t : Domain} (h : WholeRange t) {v : ℝ} (hv : IsValue t v) (b : Bool) :
    asDtype b v = v := by
  obtain ⟨n, rfl⟩ := hv.2.2 h.isInt
  exact asDtype_int b n

theorem asDtype_row {tgt : List Domain} (ht : ∀ t ∈ tgt, WholeRange t) {row : List ℝ}
    (hr : List.Forall₂ (fun v t => IsValue t v) row tgt) (b : Bool) : row.map (asDtype b) = row := by
  induction hr with
  | nil => rfl
  | cons hv _ ih =>
    rw [List.map_cons, ih (fun t h => ht t (by simp [h])), asDtype_value (ht _ (by simp)) hv]

/-- Every value of a range is hit. -/
theorem hit {t : Domain} (h : WholeRange t) {v : ℝ} (hv : IsValue t v) :
    ∃ x, 0 ≤ x ∧ x < 1 ∧ t.cast x unitFloat = some v := by
  obtain ⟨n, rfl⟩ := hv.2.2 h.isInt
  have hs := h.declared.shape
  obtain ⟨l, u, cat, hlt, rfl⟩ := h.eq
  have h1 : l ≤ n := by
    have : (l : ℝ) ≤ n := hv.1
    exact_mod_cast this
  have h2 : n ≤ u := by
    have : (n : ℝ) ≤ u := hv.2.1
    exact_mod_cast this
  have hcard : (⟨l, u, true, true, none, none, cat⟩ : Domain).card = some (u - l + 1) := by
    simp only [Domain.card, card.byRound, if_true, Option.some.injEq]
    rw [show (u : ℝ) - l + 1 = ((u - l + 1 : ℤ) : ℝ) by push_cast; ring, Int.floor_intCast]
  have hq : (0 : ℝ) < ((u - l + 1 : ℤ) : ℝ) := by
    have : 0 < u - l + 1 := by omega
    exact_mod_cast this
  have hd : (0 : ℝ) < ((u - l : ℤ) : ℝ) := by
    have : 0 < u - l := by omega
    exact_mod_cast this
  have hn0 : (0 : ℝ) ≤ ((n - l : ℤ) : ℝ) := by
    have : 0 ≤ n - l := by omega
    exact_mod_cast this
  have hn1 : ((n - l : ℤ) : ℝ) + 1 ≤ ((u - l + 1 : ℤ) : ℝ) := by
    have : n - l + 1 ≤ u - l + 1 := by omega
    exact_mod_cast this
  refine ⟨((n - l : ℤ) : ℝ) / ((u - l + 1 : ℤ) : ℝ), div_nonneg hn0 hq.le, ?_, ?_⟩
  · rw [div_lt_one hq]; linarith
  · rw [cast_unit hs]
    unfold fromUnit
    rw [if_neg hs.not_unitFloat, hcard]
    simp only [quantize, div_mul_cancel₀ _ hq.ne', Int.floor_intCast]
    rw [max_eq_left (by omega), min_eq_left (by omega), show u - l + 1 - 1 = u - l by ring,
      fdiv_eq hd.ne']
    simp only [Option.bind_eq_bind, Option.bind_some, Option.pure_def, Option.some.injEq]
    rw [show ((n - l : ℤ) : ℝ) / ((u - l : ℤ) : ℝ) * ((u : ℝ) - l) + l = ((n : ℤ) : ℝ) by
      rw [show (u : ℝ) - l = ((u - l : ℤ) : ℝ) by push_cast; ring, div_mul_cancel₀ _ hd.ne']
      push_cast; ring]
    simp [roundIf, asDtype]

theorem translate_hit {tgt : List Domain} (ht : ∀ t ∈ tgt, WholeRange t) {row : List ℝ}
    (hr : List.Forall₂ (fun v t => IsValue t v) row tgt) :
    ∃ raws, UnitDraw raws ∧ raws.length = tgt.length ∧
      translate raws (List.replicate raws.length unitFloat) tgt = some row := by
  suffices H : ∃ raws, UnitDraw raws ∧ raws.length = tgt.length ∧
      ((raws.zip ((List.replicate raws.length unitFloat).zip tgt)).mapM
        fun (v, f, t) => t.cast v f) = some row by
    obtain ⟨raws, h1, h2, h3⟩ := H
    refine ⟨raws, h1, h2, ?_⟩
    unfold translate
    rw [if_neg (by simp), if_neg (by simp [h2]), h3]
  induction hr with
  | nil => exact ⟨[], by simp [UnitDraw], rfl, rfl⟩
  | @cons v t vs ts hv _ ih =>
    obtain ⟨raws, h1, h2, h3⟩ := ih (fun t h => ht t (by simp [h]))
    obtain ⟨x, x0, x1, hx⟩ := hit (ht t (by simp)) hv
    refine ⟨x :: raws, ?_, by simp [h2], ?_⟩
    · intro y hy
      rcases List.mem_cons.mp hy with rfl | hy
      · exact ⟨x0, x1⟩
      · exact h1 y hy
    · simp only [List.length_cons, List.replicate_succ, List.zip_cons_cons, List.mapM_cons, hx, h3,
        Option.bind_eq_bind, Option.bind_some, Option.pure_def]

theorem translate_values {tgt : List Domain} (ht : ∀ t ∈ tgt, WholeRange t) {raws : List ℝ}
    (hu : UnitDraw raws) (hl : raws.length = tgt.length) :
    ∃ row, translate raws (List.replicate raws.length unitFloat) tgt = some row ∧
      List.Forall₂ (fun v t => IsValue t v) row tgt := by
  refine C29_translate_in_bounds_partial raws _ tgt ?_ hl.symm (fun t h => (ht t h).declared) ?_
  · clear hl
    induction raws with
    | nil => exact List.Forall₂.nil
    | cons x raws ih =>
      refine List.Forall₂.cons ⟨declared_unitFloat, ?_⟩ (ih fun y hy => hu y (by simp [hy]))
      have := hu x (by simp)
      exact ⟨this.1, this.2.le, by simp [unitFloat]⟩
  · intro p hp hlift
    have := List.eq_of_mem_replicate (List.of_mem_zip (a := p.1) (b := p.2) hp).2
    unfold LogLift at hlift
    simp [this, unitFloat] at hlift

/-- **C133, the uniform sampler**: whatever type it is asked for, a row of values of the domains comes
back, and every row of values of the domains can come back. -/
theorem C133_uniform (whole : Bool) (tgt : List Domain) (ht : ∀ t ∈ tgt, WholeRange t) :
    (∀ raws, UnitDraw raws → raws.length = tgt.length →
      ∃ row, uniformRow whole raws tgt = some row ∧ List.Forall₂ (fun v t => IsValue t v) row tgt) ∧
    ∀ row, List.Forall₂ (fun v t => IsValue t v) row tgt →
      ∃ raws, UnitDraw raws ∧ raws.length = tgt.length ∧ uniformRow whole raws tgt = some row := by
  constructor
  · intro raws hu hl
    obtain ⟨row, h1, h2⟩ := translate_values ht hu hl
    refine ⟨row, ?_, h2⟩
    unfold uniformRow
    rw [h1, Option.map_some, asDtype_row ht h2]
  · intro row hr
    obtain ⟨raws, h1, h2, h3⟩ := translate_hit ht hr
    refine ⟨raws, h1, h2, ?_⟩
    unfold uniformRow
    rw [h3, Option.map_some, asDtype_row ht hr]

theorem sobolRow_false (raws : List ℝ) (tgt : List Domain) :
    sobolRow false raws tgt = uniformRow false raws tgt := by
  have : ∀ l : List ℝ, l.map (asDtype false) = l := by
    intro l
    conv_rhs => rw [← List.map_id l]
    exact List.map_congr_left fun x _ => by simp [asDtype]
  unfold sobolRow uniformRow
  rw [this]

/-- **C133, the Sobol sampler** (partial): the same, if it is asked for floating point numbers or for no
type.  For an integer type see `C133_sobol_fails`. -/
theorem C133_sobol_partial (tgt : List Domain) (ht : ∀ t ∈ tgt, WholeRange t) :
    (∀ raws, UnitDraw raws → raws.length = tgt.length →
      ∃ row, sobolRow false raws tgt = some row ∧ List.Forall₂ (fun v t => IsValue t v) row tgt) ∧
    ∀ row, List.Forall₂ (fun v t => IsValue t v) row tgt →
      ∃ raws, UnitDraw raws ∧ raws.length = tgt.length ∧ sobolRow false raws tgt = some row := by
  simp only [sobolRow_false]
  exact C133_uniform false tgt ht

theorem zipWith_zeros (tgt : List Domain) : List.zipWith
    (fun (v : ℝ) (t : Domain) => if v = 1 then t.upper else t.lower) (List.replicate tgt.length 0) tgt =
      tgt.map (·.lower) := by
  induction tgt with
  | nil => rfl
  | cons t tgt ih =>
    rw [List.length_cons, List.replicate_succ, List.zipWith_cons_cons, ih]
    simp

/-- **C133 fails** for the Sobol sampler: asked for integers, it returns the lowest value of every domain,
whatever it draws. -/
theorem C133_sobol_fails (tgt : List Domain) (ht : ∀ t ∈ tgt, WholeRange t) (raws : List ℝ)
    (hu : UnitDraw raws) (hl : raws.length = tgt.length) :
    sobolRow true raws tgt = some (tgt.map (·.lower)) := by
  have hz : raws.map (asDtype true) = List.replicate tgt.length 0 := by
    rw [← hl]
    clear hl
    induction raws with
    | nil => rfl
    | cons x raws ih =>
      rw [List.map_cons, asDtype_unit (hu x (by simp)), ih (fun y hy => hu y (by simp [hy]))]
      rfl
  unfold sobolRow
  rw [hz, hl, translate_corner _ tgt (by simp) (fun t h => (ht t h).declared)
    (fun v hv => .inl (List.eq_of_mem_replicate hv)), zipWith_zeros, Option.map_some]
  congr 1
  refine asDtype_row ht ?_ true
  rw [List.forall₂_map_left_iff, List.forall₂_same]
  intro t h
  have hs := (ht t h).declared.shape
  exact ⟨le_refl _, hs.lt.le, hs.lowerInt⟩

/-- **C133 fails** for priors: asked for integers, the prior around any values of integer parameters
returns the lower or the upper bound of every parameter, whatever it draws and wherever its centers are;
and the upper bound only if the draw reaches the end of the unit interval. -/
theorem C133_prior_fails (domains : List Domain) (hd : ∀ d ∈ domains, d.isCategorical = false)
    (centers : List (Option (ℝ × ℝ))) (prior : List DistDom)
    (hp : makeCentered domains centers = some prior) (tgt : List Domain)
    (ht : ∀ t ∈ tgt, WholeRange t) (hlen : tgt.length = domains.length) (raws : List ℝ)
    (hr : List.Forall₂ (fun dd raw => dd.dist.Possible raw) prior raws) :
    priorRowAs true prior raws tgt = some (List.zipWith
      (fun (v : ℝ) (t : Domain) => if v = 1 then t.upper else t.lower)
      (List.zipWith (fun (d : DistDom) r => d.dist.draw r) prior raws) tgt) := by
  unfold makeCentered at hp
  split at hp
  · simp at hp
  rename_i hl
  have key : prior.length = (domains.zip centers).length ∧
      prior.map (·.domain) = List.replicate prior.length unitFloat ∧
      ∀ v ∈ List.zipWith (fun (d : DistDom) r => d.dist.draw r) prior raws, 0 ≤ v ∧ v ≤ 1 := by
    have hz : ∀ p ∈ domains.zip centers, p.1.isCategorical = false :=
      fun p h => hd _ (List.of_mem_zip (a := p.1) (b := p.2) h).1
    generalize domains.zip centers = l at hp hz
    clear hl hlen
    induction l generalizing prior raws with
    | nil =>
      simp only [List.mapM_nil, Option.pure_def, Option.some.injEq] at hp
      subst hp
      simp
    | cons p l ih =>
      rw [List.mapM_cons] at hp
      cases h1 : centeredOne p.1 p.2 with
      | none => simp [h1] at hp
      | some dd =>
        cases h2 : l.mapM (fun p => centeredOne p.1 p.2) with
        | none => simp [h1, h2] at hp
        | some rest =>
          simp only [h1, h2, Option.bind_eq_bind, Option.bind_some, Option.pure_def,
            Option.some.injEq] at hp
          subst hp
          cases hr with
          | @cons _ raw _ raws' hraw hrest =>
            obtain ⟨i1, i2, i3⟩ := ih rest raws' hrest h2 (fun q hq => hz q (by simp [hq]))
            have hdd : dd.domain = unitFloat ∧ 0 ≤ dd.dist.draw raw ∧ dd.dist.draw raw ≤ 1 := by
              have hcat := hz p (by simp)
              unfold centeredOne at h1
              rcases hc : p.2 with _ | ⟨c, conf⟩
              · simp only [hc, Option.some.injEq] at h1
                subst h1
                exact ⟨rfl, hraw.1, hraw.2⟩
              · simp only [hc] at h1
                split at h1
                · simp at h1
                · simp only [hcat, Bool.false_eq_true, if_false] at h1
                  cases hu : p.1.toUnit c with
                  | none => simp [hu] at h1
                  | some loc =>
                    simp only [hu, Option.bind_eq_bind, Option.bind_some, Option.some.injEq] at h1
                    subst h1
                    exact ⟨rfl, le_min (le_max_right _ _) zero_le_one, min_le_right _ _⟩
            refine ⟨by simp [i1], by simp [i2, hdd.1, List.replicate_succ], ?_⟩
            intro v hv
            rw [List.zipWith_cons_cons, List.mem_cons] at hv
            rcases hv with rfl | hv
            · exact hdd.2
            · exact i3 v hv
  obtain ⟨k1, k2, k3⟩ := key
  have hpl : prior.length = tgt.length := by
    rw [k1, List.length_zip, hlen]
    simp only [ne_eq, not_not] at hl
    omega
  have hrl : raws.length = tgt.length := by rw [← hr.length_eq, hpl]
  have hmap : List.zipWith (fun (d : DistDom) r => asDtype true (d.dist.draw r)) prior raws =
      (List.zipWith (fun (d : DistDom) r => d.dist.draw r) prior raws).map (asDtype true) := by
    rw [List.map_zipWith]
  have hzl : (List.zipWith (fun (d : DistDom) r => d.dist.draw r) prior raws).length = tgt.length := by
    rw [List.length_zipWith]; omega
  unfold priorRowAs
  rw [hmap, k2, hpl]
  generalize List.zipWith (fun (d : DistDom) r => d.dist.draw r) prior raws = vs at k3 hzl
  have hbit : ∀ v ∈ vs, asDtype true v = if v = 1 then 1 else 0 := by
    intro v hv
    obtain ⟨h0, h1⟩ := k3 v hv
    split
    · rename_i h
      rw [h]
      exact_mod_cast asDtype_int true 1
    · rename_i h
      exact asDtype_unit ⟨h0, lt_of_le_of_ne h1 h⟩
  have hvs : vs.map (asDtype true) = vs.map fun v => if v = 1 then (1 : ℝ) else 0 :=
    List.map_congr_left hbit
  rw [hvs, translate_corner _ tgt (by simp [hzl]) (fun t h => (ht t h).declared) (by
    intro v hv
    obtain ⟨w, _, rfl⟩ := List.mem_map.mp hv
    split <;> simp), Option.map_some]
  have hone : List.zipWith (fun (v : ℝ) (t : Domain) => if v = 1 then t.upper else t.lower)
      (vs.map fun v => if v = 1 then (1 : ℝ) else 0) tgt =
      List.zipWith (fun (v : ℝ) (t : Domain) => if v = 1 then t.upper else t.lower) vs tgt := by
    rw [List.zipWith_map_left]
    congr 1
    funext v t
    by_cases h : v = 1 <;> simp [h]
  rw [hone]
  congr 1
  refine asDtype_row ht ?_ true
  clear hone hvs hbit hmap hrl k2 k1 hpl hlen
  induction tgt generalizing vs with
  | nil =>
    obtain rfl := List.length_eq_zero_iff.mp hzl
    exact List.Forall₂.nil
  | cons t tgt ih =>
    match vs, hzl with
    | v :: vs, hzl =>
      rw [List.zipWith_cons_cons]
      have hs := (ht t (by simp)).declared.shape
      refine List.Forall₂.cons ?_ ?_
      · split
        · exact ⟨hs.lt.le, le_refl _, hs.upperInt⟩
        · exact ⟨le_refl _, hs.lt.le, hs.lowerInt⟩
      · exact ih (fun t h => ht t (by simp [h])) vs
          (fun v hv => k3 v (by simp [hv])) (by simpa using hzl)

/-- **C133, corners** come out the same whatever the type. -/
theorem C133_border (whole : Bool) (tgt : List Domain) (ht : ∀ t ∈ tgt, WholeRange t) (c : ℕ) :
    cornerRowAs whole tgt.length c tgt = some (corner tgt c) := by
  have hz : (cornerRow tgt.length c).map (asDtype whole) = cornerRow tgt.length c := by
    conv_rhs => rw [← List.map_id (cornerRow tgt.length c)]
    refine List.map_congr_left fun v hv => ?_
    rcases cornerRow_mem _ _ v hv with rfl | rfl
    · exact_mod_cast asDtype_int whole 0
    · exact_mod_cast asDtype_int whole 1
  unfold cornerRowAs
  rw [hz, translate_corner _ tgt (by simp [cornerRow_length]) (fun t h => (ht t h).declared)
    (cornerRow_mem _ _), Option.map_some]
  congr 1
  refine asDtype_row ht ?_ whole
  have := corner_isCorner tgt c
  unfold IsCorner at this
  have hmem : List.Forall₂ (fun v t => t ∈ tgt ∧ (v = t.lower ∨ v = t.upper)) (corner tgt c) tgt := by
    clear hz
    have h2 : ∀ {l : List ℝ} {ts : List Domain}, (∀ t ∈ ts, t ∈ tgt) →
        List.Forall₂ (fun v d => v = d.lower ∨ v = d.upper) l ts →
        List.Forall₂ (fun v t => t ∈ tgt ∧ (v = t.lower ∨ v = t.upper)) l ts := by
      intro l ts hsub h
      induction h with
      | nil => exact List.Forall₂.nil
      | cons hv _ ih =>
        exact List.Forall₂.cons ⟨hsub _ (by simp), hv⟩ (ih fun t h => hsub t (by simp [h]))
    exact h2 (fun _ h => h) this
  refine hmem.imp ?_
  rintro v t ⟨hm, hv⟩
  have hs := (ht t hm).declared.shape
  rcases hv with rfl | rfl
  · exact ⟨le_refl _, hs.lt.le, hs.lowerInt⟩
  · exact ⟨hs.lt.le, le_refl _, hs.upperInt⟩

/-- **C133 fails** for mixtures: if all domains are ranges of integers and the caller asks for no type or
for an integer type, the mixture asks its samplers for integers, and all the points it takes from a Sobol sampler are the same
point, the lowest. -/
theorem C133_mixture_fails (samplers : List Sampler) (tgt : List Domain)
    (dtype : Option Bool) (hdt : dtype ≠ some false) (ht : ∀ t ∈ tgt, WholeRange t) (chosen : List ℕ) (init : List (List ℝ))
    (hi : init.length = chosen.length) (hc : ∀ c ∈ chosen, c < samplers.length)
    (samples : ℕ → List (List ℝ))
    (hs : ∀ i (h : i < samplers.length), i ∈ chosen →
      samplers[i].sample (chosen.count i) tgt = some (samples i) ∧
      (samples i).length = chosen.count i)
    (k : ℕ) (draws : ℕ → List (List ℝ)) (hk : samplers[k]? = some (sobolSampler tgt.length dtype draws))
    (hkc : k ∈ chosen)
    (hdraws : ∀ n, ∀ raws ∈ draws n, UnitDraw raws ∧ raws.length = tgt.length) :
    ∃ out, weightedSample samplers tgt chosen init = some out ∧
      (rowsOf chosen out k).length = chosen.count k ∧
      ∀ row ∈ rowsOf chosen out k, row = tgt.map (·.lower) := by
  obtain ⟨out, h1, _, h3⟩ := C73_rows samplers tgt chosen init hi hc samples hs
  have hlt := hc k hkc
  obtain ⟨h4, h5⟩ := hs k hlt hkc
  have he : samplers[k] = sobolSampler tgt.length dtype draws := by
    rw [List.getElem?_eq_getElem hlt] at hk
    simpa using hk
  rw [he] at h4
  refine ⟨out, h1, by rw [h3 k hkc, h5], ?_⟩
  rw [h3 k hkc]
  have hw : weightedWhole dtype tgt = true := by
    match dtype, hdt with
    | some true, _ => rfl
    | some false, hdt => exact absurd rfl hdt
    | none, _ =>
      simp only [weightedWhole, Bool.not_eq_true', List.any_eq_false]
      intro t h
      simp [(ht t h).isInt]
  simp only [sobolSampler, hw] at h4
  have hall : ∀ (l : List (List ℝ)) (out : List (List ℝ)),
      (∀ raws ∈ l, UnitDraw raws ∧ raws.length = tgt.length) →
      (l.mapM fun raws => sobolRow true raws tgt) = some out → ∀ row ∈ out, row = tgt.map (·.lower) := by
    intro l
    induction l with
    | nil =>
      intro out _ h
      simp only [List.mapM_nil, Option.pure_def, Option.some.injEq] at h
      subst h
      simp
    | cons r l ih =>
      intro out hr h
      obtain ⟨u1, u2⟩ := hr r (by simp)
      rw [List.mapM_cons, C133_sobol_fails tgt ht r u1 u2] at h
      cases hm : l.mapM (fun raws => sobolRow true raws tgt) with
      | none => simp [hm] at h
      | some rest =>
        simp only [hm, Option.bind_eq_bind, Option.bind_some, Option.pure_def, Option.some.injEq] at h
        subst h
        intro row hrow
        rcases List.mem_cons.mp hrow with rfl | hrow
        · rfl
        · exact ih rest (fun x hx => hr x (by simp [hx])) hm row hrow
  exact hall _ _ (hdraws _) h4

/-- **C133** for mixtures, asked for floating point numbers.  The points a mixture takes from a Sobol
sampler are the first points of the sequence, each translated to the domains.  Missing: mixtures that
are asked for integers or for no type, see `C133_mixture_fails`. -/
theorem C133_mixture_partial (samplers : List Sampler) (tgt : List Domain)
    (chosen : List ℕ) (init : List (List ℝ))
    (hi : init.length = chosen.length) (hc : ∀ c ∈ chosen, c < samplers.length)
    (samples : ℕ → List (List ℝ))
    (hs : ∀ i (h : i < samplers.length), i ∈ chosen →
      samplers[i].sample (chosen.count i) tgt = some (samples i) ∧
      (samples i).length = chosen.count i)
    (k : ℕ) (draws : ℕ → List (List ℝ))
    (hk : samplers[k]? = some (sobolSampler tgt.length (some false) draws)) (hkc : k ∈ chosen) :
    ∃ out, weightedSample samplers tgt chosen init = some out ∧
      (draws (chosen.count k)).mapM (fun raws => sobolRow false raws tgt)
        = some (rowsOf chosen out k) := by
  obtain ⟨out, h1, _, h3⟩ := C73_rows samplers tgt chosen init hi hc samples hs
  have hlt := hc k hkc
  obtain ⟨h4, _⟩ := hs k hlt hkc
  have he : samplers[k] = sobolSampler tgt.length (some false) draws := by
    rw [List.getElem?_eq_getElem hlt] at hk
    simpa using hk
  rw [he] at h4
  refine ⟨out, h1, ?_⟩
  rw [h3 k hkc]
  exact h4

theorem oneToTen : Domain.integer 1 10 =
    some ⟨((1 : ℤ) : ℝ), ((10 : ℤ) : ℝ), true, true, none, none, false⟩ := by
  have h1 : rnd (1 : ℝ) = 1 := by exact_mod_cast rnd_intCast 1
  have h2 : rnd (10 : ℝ) = 10 := by exact_mod_cast rnd_intCast 10
  simp [Domain.integer, mkLogBounds, make, Domain.card, card.byRound, h1, h2]

/-- Non-vacuity: an integer parameter from 1 to 10 has a range, 7 is among its values, and there is a
prior around 7. -/
example : ∃ t, Domain.integer 1 10 = some t ∧ WholeRange t ∧ IsValue t 7 ∧ (7 : ℝ) ≠ t.lower ∧
    t.isCategorical = false ∧ ∃ prior, makeCentered [t] [some (7, 1 / 2)] = some prior := by
  have hw : WholeRange ⟨((1 : ℤ) : ℝ), ((10 : ℤ) : ℝ), true, true, none, none, false⟩ :=
    ⟨1, 10, false, by omega, by exact_mod_cast oneToTen⟩
  have hv : IsValue ⟨((1 : ℤ) : ℝ), ((10 : ℤ) : ℝ), true, true, none, none, false⟩ 7 :=
    ⟨by norm_num, by norm_num, fun _ => ⟨7, by norm_num⟩⟩
  refine ⟨_, oneToTen, hw, hv, by norm_num, rfl, ?_⟩
  obtain ⟨loc, _, h, _⟩ := C74_numerical _ hw.declared rfl 7 hv (1 / 2) (by norm_num) (by norm_num)
  exact ⟨_, h⟩

/-- Non-vacuity: a mixture of two Sobol samplers, drawn for two points and one. -/
example (t : Domain) (ht : WholeRange t) :
    let draws : ℕ → List (List ℝ) := fun n => List.replicate n [2⁻¹]
    ∃ out, weightedSample [sobolSampler 1 none draws, sobolSampler 1 none draws] [t] [0, 1, 0]
      [[0], [0], [0]] = some out ∧ (rowsOf [0, 1, 0] out 0).length = 2 ∧
      ∀ row ∈ rowsOf [0, 1, 0] out 0, row = [t.lower] := by
  intro draws
  have hw : weightedWhole none [t] = true := by simp [weightedWhole, ht.isInt]
  have hu : UnitDraw [2⁻¹] := by
    intro x hx
    rw [List.mem_singleton] at hx
    subst hx
    norm_num
  have hrow : sobolRow true [2⁻¹] [t] = some [t.lower] :=
    C133_sobol_fails [t] (by simpa using ht) [2⁻¹] hu rfl
  refine C133_mixture_fails _ [t] none (by simp) (by simpa using ht) [0, 1, 0] _ rfl (by simp)
    (fun i => List.replicate ([0, 1, 0].count i) [t.lower]) ?_ 0 draws rfl (by simp) ?_
  · intro i h hi
    rcases List.mem_cons.mp hi with rfl | hi
    · simp [sobolSampler, draws, hw, hrow, List.replicate_succ]
    · rcases List.mem_cons.mp hi with rfl | hi
      · simp [sobolSampler, draws, hw, hrow, List.replicate_succ]
      · rw [List.mem_singleton] at hi
        subst hi
        simp [sobolSampler, draws, hw, hrow, List.replicate_succ]
  · intro n raws hr
    rw [List.eq_of_mem_replicate hr]
    exact ⟨hu, rfl⟩

end Verif.Sampling
