import Verif.Bo.Pool

/-!
# Lemmas about the sampler that mutates good configurations
-/

namespace Verif.Bo.Pool

variable {X : Type}

theorem oneChild_spec (S : Settings X) (D : Draws X) (c : X) (p : ℕ) (s : Progress) (k : X)
    (h : (oneChild S D c p s).1 = some k) :
    ∃ t, D.mutate t c = some k ∧ (S.allowIsomorphism = false → S.same k c = false) := by
  induction p generalizing s with
  | zero => simp [oneChild] at h
  | succ p ih =>
    unfold oneChild at h
    cases hm : D.mutate s.calls c with
    | none => rw [hm] at h; exact ih _ h
    | some child =>
      rw [hm] at h
      simp only at h
      split at h
      · exact ih _ h
      · rename_i hc
        simp only [Option.some.injEq] at h
        subst h
        refine ⟨_, hm, fun hi => ?_⟩
        simp only [hi, Bool.not_false, Bool.true_and, Bool.or_eq_true, not_or,
          Bool.not_eq_true] at hc
        exact hc.1

theorem childrenOf_spec (S : Settings X) (D : Draws X) (c : X) (n p : ℕ) (s : Progress) :
    (childrenOf S D c n p s).1.length ≤ n ∧ ∀ k ∈ (childrenOf S D c n p s).1,
      ∃ t, D.mutate t c = some k ∧ (S.allowIsomorphism = false → S.same k c = false) := by
  induction n generalizing p s with
  | zero => simp [childrenOf]
  | succ n ih =>
    obtain ⟨h1, h2⟩ := ih (oneChild S D c p s).2.1 (oneChild S D c p s).2.2
    have hs := oneChild_spec S D c p s
    simp only [childrenOf, List.length_append, List.mem_append, Option.mem_toList]
    constructor
    · cases (oneChild S D c p s).1 <;> simp <;> omega
    · rintro k (hk | hk)
      · exact hs k hk
      · exact h2 k hk

theorem allChildren_spec (S : Settings X) (D : Draws X) (per : ℕ) (cs : List X) (s : Progress) :
    ∃ gs : List (X × List X), gs.map (·.1) = cs ∧ allChildren S D per cs s = gs.flatMap (·.2) ∧
      ∀ g ∈ gs, g.2.length ≤ per ∧ ∀ k ∈ g.2,
        ∃ t, D.mutate t g.1 = some k ∧ (S.allowIsomorphism = false → S.same k g.1 = false) := by
  induction cs generalizing s with
  | nil => exact ⟨[], rfl, rfl, by simp⟩
  | cons c cs ih =>
    obtain ⟨gs, h1, h2, h3⟩ := ih (childrenOf S D c per S.patience s).2
    refine ⟨(c, (childrenOf S D c per S.patience s).1) :: gs, by simp [h1], ?_, ?_⟩
    · simp only [allChildren, h2, List.flatMap_cons]
    · rintro g hg
      rcases List.mem_cons.mp hg with rfl | hg
      · exact childrenOf_spec S D c per S.patience s
      · exact h3 g hg

theorem groups_length (gs : List (X × List X)) (per : ℕ) (h : ∀ g ∈ gs, g.2.length ≤ per) :
    (gs.flatMap (·.2)).length ≤ gs.length * per := by
  induction gs with
  | nil => simp
  | cons g gs ih =>
    have h1 := h g (by simp)
    have h2 := ih fun g hg => h g (by simp [hg])
    simp only [List.flatMap_cons, List.length_append, List.length_cons, Nat.add_mul]
    omega

theorem mapM_sample (D : Draws X) (l : List ℕ) (r : List X) (h : l.mapM D.sample = some r) :
    r.length = l.length ∧ ∀ f ∈ r, ∃ t, D.sample t = some f := by
  induction l generalizing r with
  | nil => cases h; simp
  | cons a l ih =>
    rw [List.mapM_cons] at h
    cases ha : D.sample a with
    | none => rw [ha] at h; cases h
    | some b =>
      cases hl : l.mapM D.sample with
      | none => rw [ha, hl] at h; cases h
      | some bs =>
        rw [ha, hl] at h
        cases h
        obtain ⟨h1, h2⟩ := ih bs hl
        refine ⟨by simp [h1], ?_⟩
        intro f hf
        rcases List.mem_cons.mp hf with rfl | hf
        · exact ⟨a, ha⟩
        · exact h2 f hf

theorem mapM_total (D : Draws X) (h : ∀ t, ∃ f, D.sample t = some f) (l : List ℕ) :
    ∃ r, l.mapM D.sample = some r := by
  induction l with
  | nil => exact ⟨[], rfl⟩
  | cons a l ih =>
    obtain ⟨b, hb⟩ := h a
    obtain ⟨bs, hbs⟩ := ih
    exact ⟨b :: bs, by rw [List.mapM_cons, hb, hbs]; rfl⟩

/-- All mutations succeed and all hashes are new. -/
theorem oneChild_full (S : Settings X) (D : Draws X) (c : X) (p : ℕ) (s : Progress) (hp : 1 ≤ p)
    (hm : ∀ t, ∃ k, D.mutate t c = some k ∧ S.same k c = false)
    (hs : ∀ a ∈ s.seen, ∃ t < s.calls, a = D.hash t) (hinj : Function.Injective D.hash) :
    (oneChild S D c p s).1.isSome = true ∧ 1 ≤ (oneChild S D c p s).2.1 ∧
      ∀ a ∈ (oneChild S D c p s).2.2.seen, ∃ t < (oneChild S D c p s).2.2.calls, a = D.hash t := by
  obtain ⟨p, rfl⟩ : ∃ q, p = q + 1 := ⟨p - 1, by omega⟩
  obtain ⟨k, hk, hsame⟩ := hm s.calls
  have hnot : s.seen.contains (D.hash s.calls) = false := by
    rw [← Bool.not_eq_true, List.contains_iff_mem]
    intro hc
    obtain ⟨t, ht, e⟩ := hs _ hc
    have := hinj e
    omega
  have e : oneChild S D c (p + 1) s =
      (some k, p + 1, ⟨s.calls + 1, D.hash s.calls :: s.seen⟩) := by
    unfold oneChild
    rw [hk]
    simp only [hsame, hnot, Bool.or_self, Bool.and_false, Bool.false_eq_true, if_false]
  rw [e]
  refine ⟨rfl, by simp, fun a ha => ?_⟩
  rcases List.mem_cons.mp ha with rfl | ha
  · exact ⟨s.calls, by simp, rfl⟩
  · obtain ⟨t, ht, e⟩ := hs a ha
    exact ⟨t, by simp only; omega, e⟩

theorem childrenOf_full (S : Settings X) (D : Draws X) (c : X) (n p : ℕ) (s : Progress) (hp : 1 ≤ p)
    (hm : ∀ t, ∃ k, D.mutate t c = some k ∧ S.same k c = false)
    (hs : ∀ a ∈ s.seen, ∃ t < s.calls, a = D.hash t) (hinj : Function.Injective D.hash) :
    (childrenOf S D c n p s).1.length = n ∧
      ∀ a ∈ (childrenOf S D c n p s).2.seen, ∃ t < (childrenOf S D c n p s).2.calls, a = D.hash t := by
  induction n generalizing p s with
  | zero => exact ⟨rfl, hs⟩
  | succ n ih =>
    obtain ⟨h1, h2, h3⟩ := oneChild_full S D c p s hp hm hs hinj
    obtain ⟨h4, h5⟩ := ih _ _ h2 h3
    obtain ⟨k, hk⟩ := Option.isSome_iff_exists.mp h1
    refine ⟨?_, h5⟩
    simp only [childrenOf, List.length_append, hk, Option.toList_some, List.length_singleton, h4]
    omega

theorem allChildren_full (S : Settings X) (D : Draws X) (per : ℕ) (cs : List X) (s : Progress)
    (hp : 1 ≤ S.patience)
    (hm : ∀ t, ∀ c ∈ cs, ∃ k, D.mutate t c = some k ∧ S.same k c = false)
    (hs : ∀ a ∈ s.seen, ∃ t < s.calls, a = D.hash t) (hinj : Function.Injective D.hash) :
    (allChildren S D per cs s).length = cs.length * per := by
  induction cs generalizing s with
  | nil => simp [allChildren]
  | cons c cs ih =>
    obtain ⟨h1, h2⟩ := childrenOf_full S D c per S.patience s hp (fun t => hm t c (by simp)) hs hinj
    simp only [allChildren, List.length_append, h1,
      ih _ (fun t c hc => hm t c (by simp [hc])) h2, List.length_cons, Nat.add_mul]
    omega

theorem bestConfigs_length (S : Settings X) (x : List X) (y : List ℚ) (h : y.length = x.length) :
    (bestConfigs S x y).length = min x.length S.nBest := by
  unfold bestConfigs
  rw [List.length_take, List.length_map, (List.mergeSort_perm _ _).length_eq, List.length_zip, h]
  omega

theorem bestConfigs_le (S : Settings X) (x : List X) (y : List ℚ) :
    (bestConfigs S x y).length ≤ min x.length S.nBest := by
  unfold bestConfigs
  rw [List.length_take]
  omega

theorem sorted_values (vs : List ℚ) :
    (vs.mergeSort fun a b => decide (a ≤ b)).Pairwise (· ≤ ·) := by
  have := List.pairwise_mergeSort (le := fun a b : ℚ => decide (a ≤ b))
    (fun a b c h1 h2 => by simp only [decide_eq_true_eq] at *; exact le_trans h1 h2)
    (fun a b => by simpa using le_total a b) vs
  exact this.imp fun h => by simpa using h

theorem sorted_by {Y : Type} (f : Y → ℚ) (vs : List Y) :
    (vs.mergeSort fun a b => decide (f a ≤ f b)).Pairwise fun a b => f a ≤ f b := by
  have := List.pairwise_mergeSort (le := fun a b : Y => decide (f a ≤ f b))
    (fun a b c h1 h2 => by simp only [decide_eq_true_eq] at *; exact le_trans h1 h2)
    (fun a b => by simpa using le_total (f a) (f b)) vs
  exact this.imp fun h => by simpa using h

/-- The first candidate with a value. -/
theorem first_with (acq : X → ℚ) (pool : List X) (v : ℚ) (h : v ∈ pool.map acq) :
    ∃ c, pool[(pool.map acq).idxOf v]? = some c ∧ c ∈ pool ∧ acq c = v := by
  have hlt := List.idxOf_lt_length_of_mem h
  have hget := List.getElem_idxOf hlt
  rw [List.length_map] at hlt
  rw [List.getElem_map] at hget
  exact ⟨_, List.getElem?_eq_getElem hlt, List.getElem_mem _, hget⟩

theorem firsts (acq : X → ℚ) (pool : List X) (us : List ℚ) (h : ∀ v ∈ us, v ∈ pool.map acq) :
    (us.filterMap fun v => pool[(pool.map acq).idxOf v]?).map acq = us ∧
      ∀ c ∈ us.filterMap (fun v => pool[(pool.map acq).idxOf v]?), c ∈ pool := by
  induction us with
  | nil => simp
  | cons v us ih =>
    obtain ⟨c, h1, h2, h3⟩ := first_with acq pool v (h v (by simp))
    obtain ⟨h4, h5⟩ := ih fun v hv => h v (by simp [hv])
    rw [List.filterMap_cons_some (f := fun v => pool[(pool.map acq).idxOf v]?) h1]
    refine ⟨by rw [List.map_cons, h4, h3], fun d hd => ?_⟩
    rcases List.mem_cons.mp hd with rfl | hd
    · exact h2
    · exact h5 d hd

end Verif.Bo.Pool
