import Verif.Sampling.AlignProps

/-!
# C76: the logarithm of the density of a prior
-/

namespace Verif.Sampling

open Verif.Space Verif.Space.Domain

/-! ## Lemmas -/

theorem meaningful_cons_none (cols : List Column) :
    meaningful (none :: cols) = (meaningful cols).map fun c => (c.1 + 1, c.2) := by
  unfold meaningful
  rw [List.length_cons, List.range_succ_eq_map, List.zip_cons_cons, List.filterMap_cons]
  simp only [Option.map_none]
  rw [List.map_filterMap]
  have : ((List.range cols.length).map Nat.succ).zip cols =
      ((List.range cols.length).zip cols).map fun p => (p.1 + 1, p.2) := by
    rw [List.zip_map_left]
    rfl
  rw [this, List.filterMap_map]
  apply List.filterMap_congr
  rintro ⟨i, c⟩ _
  cases c <;> rfl

theorem meaningful_cons_some (c : Domain × (ℝ → ℝ)) (cols : List Column) :
    meaningful (some c :: cols) = (0, c) :: (meaningful cols).map fun c => (c.1 + 1, c.2) := by
  have h := meaningful_cons_none cols
  unfold meaningful at h ⊢
  rw [List.length_cons, List.range_succ_eq_map, List.zip_cons_cons, List.filterMap_cons] at h ⊢
  simp only [Option.map_none, Option.map_some] at h ⊢
  rw [h]

/-- The meaningful columns are the columns with a prior, with their positions. -/
theorem mem_meaningful {cols : List Column} {i : ℕ} {c : Domain × (ℝ → ℝ)} :
    (i, c) ∈ meaningful cols ↔ cols[i]? = some (some c) := by
  induction cols generalizing i with
  | nil => simp [meaningful]
  | cons a cols ih =>
    cases a with
    | none =>
      rw [meaningful_cons_none]
      cases i with
      | zero => simp
      | succ i =>
        simp only [List.mem_map, Prod.mk.injEq, List.getElem?_cons_succ]
        rw [← ih]
        constructor
        · rintro ⟨⟨j, d⟩, h, h1, rfl⟩
          simp only at h1
          have : j = i := by omega
          subst this; exact h
        · intro h; exact ⟨(i, c), h, rfl, rfl⟩
    | some b =>
      rw [meaningful_cons_some]
      cases i with
      | zero =>
        simp only [List.mem_cons, Prod.mk.injEq, true_and, List.mem_map, List.getElem?_cons_zero,
          Option.some.injEq]
        constructor
        · rintro (h | ⟨_, _, h, _⟩)
          · exact h.symm
          · omega
        · intro h; exact Or.inl h.symm
      | succ i =>
        simp only [List.mem_cons, Prod.mk.injEq, List.mem_map, List.getElem?_cons_succ]
        rw [← ih]
        constructor
        · rintro (⟨h, _⟩ | ⟨⟨j, d⟩, h, h1, rfl⟩)
          · omega
          · simp only at h1
            have : j = i := by omega
            subst this; exact h
        · intro h; exact Or.inr ⟨(i, c), h, rfl, rfl⟩

theorem meaningful_sorted (cols : List Column) :
    (meaningful cols).Pairwise fun a b => a.1 < b.1 := by
  induction cols with
  | nil => simp [meaningful]
  | cons a cols ih =>
    have h : ((meaningful cols).map fun c => (c.1 + 1, c.2)).Pairwise fun a b => a.1 < b.1 := by
      rw [List.pairwise_map]
      exact ih.imp (by intro a b h; simpa using h)
    cases a with
    | none => rw [meaningful_cons_none]; exact h
    | some b =>
      rw [meaningful_cons_some, List.pairwise_cons]
      refine ⟨?_, h⟩
      intro c hc
      obtain ⟨d, _, rfl⟩ := List.mem_map.mp hc
      simp

/-- The columns with a prior come first. -/
def PriorsFirst (cols : List Column) : Prop :=
  ∀ (i j : ℕ) (c : Domain × (ℝ → ℝ)), i < j → cols[j]? = some (some c) → cols[i]? ≠ some none

theorem le_index (cols : List Column) : ∀ (k : ℕ) (m : ℕ × Domain × (ℝ → ℝ)),
    (meaningful cols)[k]? = some m → k ≤ m.1 := by
  have hs := meaningful_sorted cols
  intro k
  induction k with
  | zero => intro m _; omega
  | succ k ih =>
    intro m hm
    obtain ⟨hk, rfl⟩ := List.getElem?_eq_some_iff.mp hm
    have h1 := ih _ (List.getElem?_eq_getElem (by omega))
    have h2 := List.pairwise_iff_getElem.mp hs k (k + 1) (by omega) hk (by omega)
    omega

theorem index_eq_iff (cols : List Column) : PriorsFirst cols ↔
    ∀ (k : ℕ) (m : ℕ × Domain × (ℝ → ℝ)), (meaningful cols)[k]? = some m → m.1 = k := by
  constructor
  · intro h k
    induction k with
    | zero =>
      intro m hm
      by_contra hne
      have hmem := mem_meaningful.mp (List.mem_of_getElem? hm)
      have hlt : m.1 < cols.length := (List.getElem?_eq_some_iff.mp hmem).1
      have h0 : cols[0]? ≠ some none := h 0 m.1 m.2 (by omega) hmem
      cases hc : cols[0]? with
      | none =>
        rw [List.getElem?_eq_none_iff] at hc
        omega
      | some a =>
        cases a with
        | none => exact h0 hc
        | some c =>
          have hm0 : (0, c) ∈ meaningful cols := mem_meaningful.mpr hc
          obtain ⟨j, hj⟩ := List.mem_iff_getElem?.mp hm0
          have := le_index cols j _ hj
          have : j = 0 := by simpa using this
          subst this
          rw [hm] at hj
          simp only [Option.some.injEq] at hj
          rw [hj] at hne
          exact hne rfl
    | succ k ih =>
      intro m hm
      have hle := le_index cols _ _ hm
      by_contra hne
      have hmem := mem_meaningful.mp (List.mem_of_getElem? hm)
      have hlt : m.1 < cols.length := (List.getElem?_eq_some_iff.mp hmem).1
      have h0 : cols[k + 1]? ≠ some none := h (k + 1) m.1 m.2 (by omega) hmem
      cases hc : cols[k + 1]? with
      | none =>
        rw [List.getElem?_eq_none_iff] at hc
        omega
      | some a =>
        cases a with
        | none => exact h0 hc
        | some c =>
          have hmk : (k + 1, c) ∈ meaningful cols := mem_meaningful.mpr hc
          obtain ⟨j, hj⟩ := List.mem_iff_getElem?.mp hmk
          have hjle := le_index cols j _ hj
          simp only at hjle
          have hs := meaningful_sorted cols
          obtain ⟨hj1, hj2⟩ := List.getElem?_eq_some_iff.mp hj
          obtain ⟨hm1, hm2⟩ := List.getElem?_eq_some_iff.mp hm
          rcases Nat.lt_or_ge j (k + 1) with hjk | hjk
          · rcases Nat.lt_or_ge j k with hjk' | hjk'
            · have e1 := ih _ (List.getElem?_eq_getElem (by omega))
              have e2 := List.pairwise_iff_getElem.mp hs j k (by omega) (by omega) hjk'
              rw [hj2] at e2
              simp only at e2
              omega
            · have : j = k := by omega
              subst this
              have e1 := ih _ hj
              simp only at e1
              omega
          · have : j = k + 1 := by omega
            subst this
            rw [hm] at hj
            simp only [Option.some.injEq] at hj
            rw [hj] at hne
            exact hne rfl
  · intro h i j c hij hj hi
    have hm : (j, c) ∈ meaningful cols := mem_meaningful.mpr hj
    obtain ⟨k, hk⟩ := List.mem_iff_getElem?.mp hm
    have hkj := h k _ hk
    simp only at hkj
    subst hkj
    obtain ⟨hk1, -⟩ := List.getElem?_eq_some_iff.mp hk
    have hi' := h i _ (List.getElem?_eq_getElem (by omega : i < (meaningful cols).length))
    have hmem := mem_meaningful.mp (List.getElem_mem (by omega : i < (meaningful cols).length))
    simp only [List.get_eq_getElem] at hmem
    rw [hi', hi] at hmem
    simp at hmem

/-- The row and the domains it comes from fit the columns: for every column with a prior the value
can be translated into the domain of its distribution. -/
def Translatable (cols : List Column) (x : List ℝ) (frm : List Domain) : Prop :=
  x.length = cols.length ∧ frm.length = cols.length ∧
    ∀ (i : ℕ) (c : Domain × (ℝ → ℝ)) (v : ℝ) (f : Domain), cols[i]? = some (some c) →
      x[i]? = some v → frm[i]? = some f → ∃ y, c.1.cast v f = some y

/-- The value in the column `i`, in the domain of its distribution. -/
noncomputable def ownCell (x : List ℝ) (frm : List Domain) (i : ℕ) (d : Domain) : Option ℝ := do
  let v ← x[i]?
  let f ← frm[i]?
  d.cast v f

theorem translated {cols : List Column} {x : List ℝ} {frm : List Domain}
    (h : Translatable cols x frm) : ∃ frm' x' t,
    ((meaningful cols).mapM fun c => frm[c.1]?) = some frm' ∧
    ((meaningful cols).mapM fun c => x[c.1]?) = some x' ∧
    Domain.translate x' frm' ((meaningful cols).map (·.2.1)) = some t ∧
    t.length = (meaningful cols).length ∧
    ∀ (k : ℕ) (m : ℕ × Domain × (ℝ → ℝ)), (meaningful cols)[k]? = some m →
      t[k]? = ownCell x frm m.1 m.2.1 := by
  obtain ⟨hx, hf, hc⟩ := h
  have hlt : ∀ m ∈ meaningful cols, m.1 < cols.length := fun m hm =>
    (List.getElem?_eq_some_iff.mp (mem_meaningful.mp hm)).1
  obtain ⟨frm', hfrm⟩ := mapM_exists (l := meaningful cols) (f := fun c => frm[c.1]?)
    (fun m hm => ⟨_, List.getElem?_eq_getElem (by have := hlt m hm; omega)⟩)
  obtain ⟨x', hx'⟩ := mapM_exists (l := meaningful cols) (f := fun c => x[c.1]?)
    (fun m hm => ⟨_, List.getElem?_eq_getElem (by have := hlt m hm; omega)⟩)
  have hF := mapM_forall₂.mp hfrm
  have hX := mapM_forall₂.mp hx'
  obtain ⟨t, ht⟩ := mapM_exists (l := x'.zip (frm'.zip ((meaningful cols).map (·.2.1))))
    (f := fun (v, f, t) => Domain.cast t v f) (by
      intro p hp
      obtain ⟨i, hi, rfl⟩ := List.mem_iff_getElem.mp hp
      simp only [List.length_zip, List.length_map] at hi
      simp only [List.getElem_zip, List.getElem_map]
      have e1 := (List.forall₂_iff_get.mp hF).2 i (by omega) (by omega)
      have e2 := (List.forall₂_iff_get.mp hX).2 i (by omega) (by omega)
      simp only [List.get_eq_getElem] at e1 e2
      exact hc _ _ _ _ (mem_meaningful.mp (List.getElem_mem (by omega : i < (meaningful cols).length)))
        e2 e1)
  have hT := mapM_forall₂.mp ht
  have hxl : x'.length = (meaningful cols).length := hX.length_eq.symm
  have hfl : frm'.length = (meaningful cols).length := hF.length_eq.symm
  have htl : t.length = (meaningful cols).length := by
    rw [← hT.length_eq]
    simp [hxl, hfl]
  refine ⟨frm', x', t, hfrm, hx', ?_, htl, ?_⟩
  · unfold Domain.translate
    rw [if_neg (by simp [hxl, hfl]), if_neg (by simp [hxl])]
    exact ht
  · intro k m hm
    obtain ⟨hk, rfl⟩ := List.getElem?_eq_some_iff.mp hm
    have e1 := (List.forall₂_iff_get.mp hF).2 k (by omega) (by omega)
    have e2 := (List.forall₂_iff_get.mp hX).2 k (by omega) (by omega)
    have e3 := (List.forall₂_iff_get.mp hT).2 k (by simp [hxl, hfl, hk]) (by omega)
    simp only [List.get_eq_getElem, List.getElem_zip, List.getElem_map] at e1 e2 e3
    unfold ownCell
    simp only [e1, e2, Option.bind_eq_bind, Option.bind_some, e3]
    exact List.getElem?_eq_getElem (by omega)

theorem foldlM_none_of {α β : Type*} {f : β → α → Option β} {l : List α} {a : α} (ha : a ∈ l)
    (hf : ∀ b, f b a = none) (b : β) : l.foldlM f b = none := by
  induction l generalizing b with
  | nil => simp at ha
  | cons c l ih =>
    rw [List.foldlM_cons]
    rcases List.mem_cons.mp ha with rfl | ha
    · simp [hf]
    · cases hc : f b c with
      | none => simp
      | some b' => simpa using ih ha b'

/-! ## C76 -/

/-- **C76, when it raises.** Asking for the density of a row raises exactly if some column without
prior comes before a column with one: the translated row has no entry for it. -/
theorem C76_raises_iff (cols : List Column) (x : List ℝ) (frm : List Domain)
    (h : Translatable cols x frm) : logProb cols x frm = none ↔
      ∃ (i j : ℕ) (c : Domain × (ℝ → ℝ)), i < j ∧ cols[i]? = some none ∧
        cols[j]? = some (some c) := by
  obtain ⟨frm', x', t, h1, h2, h3, h4, h5⟩ := translated h
  have hiff : (∃ (i j : ℕ) (c : Domain × (ℝ → ℝ)), i < j ∧ cols[i]? = some none ∧
      cols[j]? = some (some c)) ↔ ¬ PriorsFirst cols := by
    unfold PriorsFirst
    push Not
    constructor
    · rintro ⟨i, j, c, e1, e2, e3⟩; exact ⟨i, j, c, e1, e3, e2⟩
    · rintro ⟨i, j, c, e1, e2, e3⟩; exact ⟨i, j, c, e1, e3, e2⟩
  rw [hiff, index_eq_iff]
  unfold logProb
  cases hm : meaningful cols with
  | nil => simp
  | cons m ms =>
    rw [hm] at h1 h2 h3 h4 h5
    simp only [h1, h2, h3, Option.bind_eq_bind, Option.bind_some]
    have hcell : ∀ (k : ℕ) (n : ℕ × Domain × (ℝ → ℝ)), (m :: ms)[k]? = some n → ∃ v, t[k]? = some v := by
      intro k n hk
      obtain ⟨hk', -⟩ := List.getElem?_eq_some_iff.mp hk
      exact ⟨_, List.getElem?_eq_getElem (by omega)⟩
    constructor
    · intro hnone hall
      have h0 := hall 0 m rfl
      obtain ⟨v, hv⟩ := hcell 0 m rfl
      rw [h0, hv] at hnone
      simp only [Option.bind_some] at hnone
      have hget : ∀ c ∈ ms, ∃ v, t[c.1]? = some v := by
        intro c hc
        obtain ⟨k, hk⟩ := List.mem_iff_getElem?.mp hc
        have e := hall (k + 1) c (by simpa using hk)
        rw [e]
        exact hcell (k + 1) c (by simpa using hk)
      clear hall h1 h2 h3 h4 h5 hm hcell hv h0
      generalize m.2.2 v = acc at hnone
      induction ms generalizing acc with
      | nil => simp at hnone
      | cons c ms ih =>
        obtain ⟨v, hv⟩ := hget c (by simp)
        rw [List.foldlM_cons] at hnone
        simp only [hv, Option.bind_some, Option.pure_def, Option.bind_eq_bind] at hnone
        exact ih (fun c hc => hget c (by simp [hc])) _ hnone
    · intro hall
      push Not at hall
      obtain ⟨k, n, hk, hne⟩ := hall
      have hle := le_index cols k n (by rw [hm]; exact hk)
      -- the last entry is out of range
      obtain ⟨hk', hkn⟩ := List.getElem?_eq_some_iff.mp hk
      have hs := meaningful_sorted cols
      rw [hm] at hs
      have hlast : ∀ k' (hk'' : k' < (m :: ms).length), k ≤ k' → k' < ((m :: ms)[k']).1 := by
        intro k' hk'' hkk
        induction k', hkk using Nat.le_induction with
        | base => rw [hkn]; omega
        | succ k' hkk ih =>
          have e1 := ih (by omega)
          have e2 := List.pairwise_iff_getElem.mp hs k' (k' + 1) (by omega) hk'' (by omega)
          omega
      have hL := hlast ms.length (by simp) (by simpa using hk')
      have hbad : t[((m :: ms)[ms.length]'(by simp)).1]? = none := by
        rw [List.getElem?_eq_none_iff, h4]
        simpa using hL
      cases ms with
      | nil =>
        simp only [List.length_nil, List.getElem_cons_zero] at hbad
        simp [hbad]
      | cons c ms =>
        cases hv : t[m.1]? with
        | none => simp
        | some v =>
          simp only [Option.bind_some]
          apply foldlM_none_of (a := (c :: ms)[ms.length]'(by simp)) (List.getElem_mem _)
          intro b
          simp only [List.length_cons, List.getElem_cons_succ] at hbad
          simp [hbad]

/-- **C76 (proved part).** If the columns with a prior come first, the result is the log density
of the first one plus the log densities of the others divided by the number of columns.  Missing:
the result is not the logarithm of the product of the densities, see `C76_sum_fails`. -/
theorem C76_value_partial (cols : List Column) (x : List ℝ) (frm : List Domain)
    (h : Translatable cols x frm) (c0 : Domain × (ℝ → ℝ))
    (cs : List (Domain × (ℝ → ℝ))) (rest : List Column) (hrest : ∀ c ∈ rest, c = none)
    (hc : cols = (c0 :: cs).map some ++ rest) :
    ∃ v0 vs, ownCell x frm 0 c0.1 = some v0 ∧ vs.length = cs.length ∧
      (∀ k, k < cs.length → ∃ c v, cs[k]? = some c ∧ vs[k]? = some v ∧
        ownCell x frm (k + 1) c.1 = some v) ∧
      logProb cols x frm = some (c0.2 v0 +
        (List.zipWith (fun (c : Domain × (ℝ → ℝ)) v => c.2 v) cs vs).sum * (1 / cols.length)) := by
  obtain ⟨frm', x', t, h1, h2, h3, h4, h5⟩ := translated h
  -- the meaningful columns are the first ones
  have hmean : ∀ (l : List (Domain × (ℝ → ℝ))), meaningful (l.map some ++ rest) =
      (List.range l.length).zip l := by
    intro l
    induction l with
    | nil =>
      simp only [List.map_nil, List.nil_append, List.zip_nil_right]
      clear hc h h1 h2 h3 h4 h5
      induction rest with
      | nil => simp [meaningful]
      | cons r rest ih =>
        rw [hrest r (by simp), meaningful_cons_none, ih (fun c hc => hrest c (by simp [hc]))]
        rfl
    | cons a l ih =>
      rw [List.map_cons, List.cons_append, meaningful_cons_some, ih, List.length_cons,
        List.range_succ_eq_map, List.zip_cons_cons, List.zip_map_left]
      rfl
  have hm : meaningful cols = (List.range (c0 :: cs).length).zip (c0 :: cs) := by
    rw [hc]; exact hmean _
  have hml : (meaningful cols).length = cs.length + 1 := by rw [hm]; simp
  have htl : t.length = cs.length + 1 := by rw [h4, hml]
  obtain ⟨v0, vs, rfl⟩ : ∃ v0 vs, t = v0 :: vs := by
    cases t with
    | nil => simp at htl
    | cons a b => exact ⟨a, b, rfl⟩
  have hvl : vs.length = cs.length := by simpa using htl
  have hget : ∀ k (hk : k < cs.length + 1), (meaningful cols)[k]? = some (k, (c0 :: cs)[k]) := by
    intro k hk
    rw [hm, List.getElem?_eq_getElem (by simpa using hk)]
    simp
  refine ⟨v0, vs, ?_, hvl, ?_, ?_⟩
  · have := h5 0 _ (hget 0 (by omega))
    simpa using this.symm
  · intro k hk
    have := h5 (k + 1) _ (hget (k + 1) (by omega))
    refine ⟨cs[k], vs[k], List.getElem?_eq_getElem hk, List.getElem?_eq_getElem (by omega), ?_⟩
    simp only [List.getElem?_cons_succ, List.getElem_cons_succ] at this
    rw [← this]
    exact List.getElem?_eq_getElem (by omega)
  · unfold logProb
    have hm' : meaningful cols = (0, c0) :: ((List.range cs.length).map Nat.succ).zip cs := by
      rw [hm, List.length_cons, List.range_succ_eq_map, List.zip_cons_cons]
    rw [hm'] at h1 h2 h3 ⊢
    simp only [h1, h2, h3, Option.bind_eq_bind, Option.bind_some, List.getElem?_cons_zero,
      Option.pure_def]
    clear h1 h2 h3 h4 h5 hm hml htl hget hm' hmean h hc hrest x' frm' x frm
    generalize (1 / (cols.length : ℝ)) = w
    generalize c0.2 v0 = acc
    -- fold over a suffix
    suffices H : ∀ (pre : List ℝ) (cs : List (Domain × (ℝ → ℝ))) (vs : List ℝ) (acc : ℝ),
        vs.length = cs.length → (((List.range cs.length).map (· + pre.length)).zip cs).foldlM
          (fun acc c => (pre ++ vs)[c.1]?.bind fun v => some (acc + w * c.2.2 v)) acc =
        some (acc + (List.zipWith (fun (c : Domain × (ℝ → ℝ)) v => c.2 v) cs vs).sum * w) by
      exact H [v0] cs vs acc hvl
    intro pre cs
    induction cs generalizing pre with
    | nil => intro vs acc hl; simp
    | cons c cs ih =>
      intro vs acc hl
      cases vs with
      | nil => simp at hl
      | cons v vs =>
        have := ih (pre ++ [v]) vs (acc + w * c.2 v) (by simpa using hl)
        simp only [List.length_cons, List.range_succ_eq_map, List.map_cons, List.map_map,
          List.zip_cons_cons, List.foldlM_cons, Nat.zero_add, List.getElem?_append_right (le_refl _),
          Nat.sub_self, List.getElem?_cons_zero, Option.bind_eq_bind, Option.bind_some,
          List.zipWith_cons_cons, List.sum_cons]
        simp only [List.length_append, List.length_cons, List.length_nil, List.append_assoc,
          List.cons_append, List.nil_append] at this
        have e : (List.range cs.length).map ((fun x => x + pre.length) ∘ Nat.succ) =
            (List.range cs.length).map (fun x => x + (pre.length + (0 + 1))) := by
          apply List.map_congr_left
          intro k _
          simp only [Function.comp]
          omega
        rw [e, this]
        congr 1
        ring

/-- If no column has a prior the density is one everywhere. -/
theorem C76_flat (cols : List Column) (hnone : ∀ c ∈ cols, c = none) (x : List ℝ) (frm : List Domain) :
    logProb cols x frm = some (Real.log 1) := by
  have hm : meaningful cols = [] := by
    induction cols with
    | nil => simp [meaningful]
    | cons r rest ih =>
      rw [hnone r (by simp), meaningful_cons_none, ih (fun c hc => hnone c (by simp [hc]))]
      rfl
  unfold logProb
  rw [hm, Real.log_one]

/-- With a single column with a prior, in the first place, the result is its log density. -/
theorem C76_single (d : Domain) (f : ℝ → ℝ) (rest : List Column) (hrest : ∀ c ∈ rest, c = none)
    (x : List ℝ) (frm : List Domain) (h : Translatable (some (d, f) :: rest) x frm) :
    ∃ v, ownCell x frm 0 d = some v ∧ logProb (some (d, f) :: rest) x frm = some (f v) := by
  obtain ⟨v0, vs, h1, h2, -, h4⟩ := C76_value_partial _ x frm h (d, f) [] rest hrest rfl
  refine ⟨v0, h1, ?_⟩
  rw [h4]
  simp

/-- **C76 fails.** Two float columns with priors of the same shape: the first column has the full
weight, the second half of it, so that the result is not the sum of the log densities, and a row
less probable than another one under the prior gets the higher result. -/
theorem C76_sum_fails :
    ∃ (f : ℝ → ℝ) (x y : List ℝ) (a b : ℝ),
      Translatable [some (unitFloat, f), some (unitFloat, f)] x [unitFloat, unitFloat] ∧
      Translatable [some (unitFloat, f), some (unitFloat, f)] y [unitFloat, unitFloat] ∧
      logProb [some (unitFloat, f), some (unitFloat, f)] x [unitFloat, unitFloat] = some a ∧
      logProb [some (unitFloat, f), some (unitFloat, f)] y [unitFloat, unitFloat] = some b ∧
      (∀ u v, f u < f v ↔ |v - 0| < |u - 0|) ∧
      (x.map f).sum < (y.map f).sum ∧ b < a := by
  have hf : ∀ u, unitFloat.cast u unitFloat = some u := by
    intro u
    unfold Domain.cast
    simp [unitFloat, asDtype, roundIf]
  have htr : ∀ (f : ℝ → ℝ) (x1 x2 : ℝ),
      Translatable [some (unitFloat, f), some (unitFloat, f)] [x1, x2] [unitFloat, unitFloat] := by
    intro f x1 x2
    refine ⟨rfl, rfl, ?_⟩
    intro i c v g h1 h2 h3
    have hcc : c = (unitFloat, f) := by
      match i, h1 with
      | 0, h1 => simpa using h1.symm
      | 1, h1 => simpa using h1.symm
    have hgg : g = unitFloat := by
      match i, h3 with
      | 0, h3 => simpa using h3.symm
      | 1, h3 => simpa using h3.symm
    subst hcc hgg
    exact ⟨v, hf v⟩
  have hval : ∀ (f : ℝ → ℝ) (x1 x2 : ℝ),
      logProb [some (unitFloat, f), some (unitFloat, f)] [x1, x2] [unitFloat, unitFloat] =
        some (f x1 + f x2 * (1 / 2)) := by
    intro f x1 x2
    obtain ⟨v0, vs, h1, h2, h3, h4⟩ := C76_value_partial _ _ _ (htr f x1 x2) (unitFloat, f) [(unitFloat, f)] [] (by simp) rfl
    rw [h4]
    obtain ⟨c, v, e1, e2, e3⟩ := h3 0 (by simp)
    simp only [List.getElem?_cons_zero, Option.some.injEq] at e1
    subst e1
    simp only [ownCell, List.getElem?_cons_zero, Option.bind_eq_bind, Option.bind_some, hf,
      Option.some.injEq] at h1
    simp only [ownCell, Nat.zero_add, List.getElem?_cons_succ, List.getElem?_cons_zero,
      Option.bind_eq_bind, Option.bind_some, hf, Option.some.injEq] at e3
    cases vs with
    | nil => simp at h2
    | cons w vs =>
      simp only [List.getElem?_cons_zero, Option.some.injEq] at e2
      simp [h1, e2, e3]
  refine ⟨fun u => truncNormalLogDensity 0 0 1 u, [0, 6 / 10], [1 / 2, 0], _, _, htr _ _ _,
    htr _ _ _, hval _ _ _, hval _ _ _, ?_, ?_, ?_⟩
  · intro u v
    exact C74_density 0 0 1 v u one_pos
  · norm_num [truncNormalLogDensity]
  · norm_num [truncNormalLogDensity]

/-- A column of a prior as `log_prob` sees it: the columns of parameters without default are
skipped (neps/sampling/priors.py:283-286); `f` gives the log densities. -/
noncomputable def DistDom.column (f : Dist → ℝ → ℝ) (d : DistDom) : Column :=
  match d.dist with
  | .uniform => none
  | dist => some (d.domain, f dist)

/-- **C76 fails** for parameters without default: if one of them is listed before a parameter with
a default, the density of any configuration raises. -/
theorem C76_missing_default_fails (f : Dist → ℝ → ℝ) (d1 d2 : Domain)
    (hd2 : Declared d2) (hc : d2.isCategorical = false) (dflt : ℝ) (hv : IsValue d2 dflt)
    (c1 c2 : Confidence) (x : List ℝ) (hx : x.length = 2) :
    ∃ prior, fromParameters [("a", .numerical d1 none c1), ("b", .numerical d2 (some dflt) c2)] =
        some prior ∧
      logProb (prior.map (·.column f)) x [unitFloat, unitFloat] = none := by
  have hconf : 0 ≤ c2.score ∧ c2.score ≤ 1 := by cases c2 <;> norm_num [Confidence.score]
  obtain ⟨loc, hl, -, -⟩ := toUnit_unit hd2.shape hv
  refine ⟨[⟨.uniform, unitFloat⟩, ⟨.truncNormal loc (max (1 - c2.score) eps), unitFloat⟩], ?_, ?_⟩
  · simp [fromParameters, PriorHp.domain, PriorHp.center, makeCentered, centeredOne, hconf.1,
      not_lt.mpr hconf.2, hc, hl]
  · rw [C76_raises_iff]
    · exact ⟨0, 1, (unitFloat, f (.truncNormal loc (max (1 - c2.score) eps))), by omega, rfl, rfl⟩
    · refine ⟨by simp [hx], rfl, ?_⟩
      intro i c v g h1 _ h3
      match i, h1, h3 with
      | 0, h1, _ => simp [DistDom.column] at h1
      | 1, h1, h3 =>
        simp only [List.map_cons, DistDom.column, List.map_nil, List.getElem?_cons_succ,
          List.getElem?_cons_zero, Option.some.injEq] at h1 h3
        subst h1 h3
        refine ⟨v, ?_⟩
        unfold Domain.cast
        simp [unitFloat, asDtype, roundIf]

end Verif.Sampling
