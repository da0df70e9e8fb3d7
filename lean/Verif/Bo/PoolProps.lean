import Verif.Bo.PoolLemmas
import Mathlib.Data.List.Perm.Basic

/-!
# C155: the sampler that mutates good configurations proposes the best candidate of its pool
-/

namespace Verif.Bo.Pool

variable {X : Type}

/-! ## Specification -/

/-- `k` comes from mutating `c`, and is another configuration. -/
def MutantOf (S : Settings X) (D : Draws X) (c k : X) : Prop :=
  (∃ t, D.mutate t c = some k) ∧ (S.allowIsomorphism = false → S.same k c = false)

/-- `xs` are the best of `pool`: a candidate that is left out is no better than any of them, unless it
has the same value as one of them. -/
def Best (acq : X → ℚ) (pool xs : List X) : Prop :=
  xs.Subperm pool ∧ ∀ c ∈ pool, (∃ x ∈ xs, acq x = acq c) ∨ ∀ x ∈ xs, acq c ≤ acq x

/-! ## Properties -/

/-- **C155**: a batch consists of as many candidates as asked for, the best of the pool, with different
values if there are as many values. It cannot be made exactly if the pool is too small. -/
theorem C155_batch (acq : X → ℚ) (pool : List X) (n : ℕ) (hn : 1 ≤ n) :
    (propose acq pool n = none ↔ pool.length < n) ∧
      ∀ xs, propose acq pool n = some xs → xs.length = n ∧ Best acq pool xs ∧
        (n ≤ (pool.map acq).dedup.length → (xs.map acq).Nodup) := by
  have hus := List.mergeSort_perm (pool.map acq).dedup fun a b => decide (a ≤ b)
  have hsort := sorted_values (pool.map acq).dedup
  have hdl : (pool.map acq).dedup.length ≤ pool.length := by
    have := (List.dedup_sublist (pool.map acq)).length_le
    rwa [List.length_map] at this
  have hnd := hus.nodup_iff.mpr (List.nodup_dedup (pool.map acq))
  have hmem : ∀ v, v ∈ (pool.map acq).dedup.mergeSort (fun a b => decide (a ≤ b)) ↔
      v ∈ pool.map acq := fun v => by rw [hus.mem_iff, List.mem_dedup]
  have hlen := hus.length_eq
  unfold propose
  simp only
  set us := (pool.map acq).dedup.mergeSort fun a b => decide (a ≤ b) with hUs
  rw [if_neg (show ¬ n = 0 by omega)]
  by_cases h1 : n ≤ us.length
  · rw [if_pos h1]
    refine ⟨by simp; omega, ?_⟩
    intro xs hxs
    simp only [Option.some.injEq] at hxs
    have hsub : ∀ v ∈ us.drop (us.length - n), v ∈ pool.map acq := fun v hv =>
      (hmem v).mp (List.mem_of_mem_drop hv)
    obtain ⟨h2, h3⟩ := firsts acq pool _ hsub
    rw [hxs] at h2 h3
    have hl : xs.length = n := by
      have := congrArg List.length h2
      rw [List.length_map, List.length_drop] at this
      omega
    have hnodup : (xs.map acq).Nodup := by
      rw [h2]
      exact hnd.sublist (List.drop_sublist _ _)
    refine ⟨hl, ⟨List.subperm_of_subset hnodup.of_map h3, ?_⟩, fun _ => hnodup⟩
    intro c hc
    have hcu : acq c ∈ us := (hmem _).mpr (List.mem_map_of_mem hc)
    rw [← List.take_append_drop (us.length - n) us] at hcu hsort
    rcases List.mem_append.mp hcu with hcu | hcu
    · right
      intro x hx
      have hx' : acq x ∈ us.drop (us.length - n) := by
        rw [← h2]
        exact List.mem_map_of_mem hx
      exact (List.pairwise_append.mp hsort).2.2 _ hcu _ hx'
    · left
      rw [← h2] at hcu
      exact List.mem_map.mp hcu
  · rw [if_neg h1]
    by_cases h2 : n ≤ pool.length
    · rw [if_pos h2]
      refine ⟨by simp; omega, ?_⟩
      intro xs hxs
      simp only [Option.some.injEq] at hxs
      have hp := List.mergeSort_perm pool fun a b => decide (acq b ≤ acq a)
      have hs : (pool.mergeSort fun a b => decide (acq b ≤ acq a)).Pairwise
          fun a b => acq b ≤ acq a := by
        have := sorted_by (fun a => - acq a) pool
        simpa only [neg_le_neg_iff] using this
      refine ⟨?_, ⟨?_, ?_⟩, fun h => by omega⟩
      · rw [← hxs, List.length_take, hp.length_eq]
        omega
      · rw [← hxs]
        exact (List.take_sublist _ _).subperm.trans hp.subperm
      · intro c hc
        rw [← hp.mem_iff, ← List.take_append_drop n (pool.mergeSort _)] at hc
        rw [← List.take_append_drop n (pool.mergeSort _)] at hs
        rw [← hxs]
        rcases List.mem_append.mp hc with hc | hc
        · exact Or.inl ⟨c, hc, rfl⟩
        · exact Or.inr fun x hx => (List.pairwise_append.mp hs).2.2 x hx c hc
    · rw [if_neg h2]
      exact ⟨by simp; omega, by simp⟩

/-- **C155**: the proposal is a candidate of the pool with the largest value. -/
theorem C155_sample (S : Settings X) (D : Draws X) (acq : X → ℚ) (x : List X) (y : List ℚ)
    (pool : List X) (h : createPool S D x y = some pool) (hne : pool ≠ []) :
    ∃ c, sample S D acq x y = some c ∧ c ∈ pool ∧ ∀ d ∈ pool, acq d ≤ acq c := by
  obtain ⟨h1, h2⟩ := C155_batch acq pool 1 (le_refl 1)
  have hlen : 0 < pool.length := List.length_pos_iff.mpr hne
  cases hp : propose acq pool 1 with
  | none => have := h1.mp hp; omega
  | some xs =>
    obtain ⟨h3, ⟨h4, h5⟩, -⟩ := h2 xs hp
    obtain ⟨c, rfl⟩ := List.length_eq_one_iff.mp h3
    refine ⟨c, ?_, h4.subset (by simp), ?_⟩
    · rw [sample, sampleBatch, h, Option.bind_some, hp, Option.bind_some]
      rfl
    · intro d hd
      rcases h5 d hd with ⟨e, he, hv⟩ | hv
      · rw [List.mem_singleton] at he
        rw [← hv, he]
      · exact hv c (by simp)

/-- **C155**: what is mutated are the configurations with the least losses, as many as asked for, or
all. -/
theorem C155_parents (S : Settings X) (x : List X) (y : List ℚ) (h : y.length = x.length) :
    ∃ chosen rest : List (ℚ × X), (chosen ++ rest).Perm (y.zip x) ∧
      bestConfigs S x y = chosen.map (·.2) ∧ chosen.length = min x.length S.nBest ∧
      ∀ a ∈ chosen, ∀ b ∈ rest, a.1 ≤ b.1 := by
  have hp := List.mergeSort_perm (y.zip x) fun a b => decide (a.1 ≤ b.1)
  have hs := sorted_by (fun a : ℚ × X => a.1) (y.zip x)
  refine ⟨((y.zip x).mergeSort fun a b => decide (a.1 ≤ b.1)).take (min x.length S.nBest),
    ((y.zip x).mergeSort fun a b => decide (a.1 ≤ b.1)).drop (min x.length S.nBest), ?_, ?_, ?_, ?_⟩
  · rw [List.take_append_drop]
    exact hp
  · rw [bestConfigs, List.map_take]
  · rw [List.length_take, hp.length_eq, List.length_zip, h]
    omega
  · rw [← List.take_append_drop (min x.length S.nBest) ((y.zip x).mergeSort _)] at hs
    exact (List.pairwise_append.mp hs).2.2

/-- **C155**: the pool consists of mutants of the best configurations, for each about as many as its
share, and random samples. It has the size asked for, if not more mutations than that are wanted. -/
theorem C155_pool (S : Settings X) (D : Draws X) (x : List X) (y : List ℚ) (pool : List X)
    (hx : x ≠ []) (h : createPool S D x y = some pool) :
    ∃ (groups : List (X × List X)) (fill : List X),
      groups.map (·.1) = bestConfigs S x y ∧ pool = groups.flatMap (·.2) ++ fill ∧
      (∀ g ∈ groups, g.2.length ≤ S.mutations / min x.length S.nBest ∧
        ∀ k ∈ g.2, MutantOf S D g.1 k) ∧
      (∀ f ∈ fill, ∃ t, D.sample t = some f) ∧ S.poolSize ≤ pool.length ∧
      (S.mutations ≤ S.poolSize → pool.length = S.poolSize) := by
  unfold createPool at h
  rw [if_neg (by simpa using hx)] at h
  split at h
  · cases h
  · rename_i h0
    obtain ⟨gs, g1, g2, g3⟩ := allChildren_spec S D (S.mutations / min x.length S.nBest)
      (bestConfigs S x y) {}
    obtain ⟨r, hr, rfl⟩ := Option.map_eq_some_iff.mp h
    obtain ⟨r1, r2⟩ := mapM_sample D _ _ hr
    rw [g2] at r1 ⊢
    rw [List.length_range] at r1
    have hle : (gs.flatMap (·.2)).length ≤ S.mutations := by
      refine (groups_length gs _ fun g hg => (g3 g hg).1).trans ?_
      have hb := bestConfigs_le S x y
      rw [← g1, List.length_map] at hb
      calc gs.length * (S.mutations / min x.length S.nBest)
          ≤ min x.length S.nBest * (S.mutations / min x.length S.nBest) :=
            Nat.mul_le_mul_right _ hb
        _ ≤ S.mutations := Nat.mul_div_le _ _
    refine ⟨gs, r, g1, rfl, fun g hg => ⟨(g3 g hg).1, fun k hk => ?_⟩, r2, ?_, ?_⟩
    · obtain ⟨t, h1, h2⟩ := (g3 g hg).2 k hk
      exact ⟨⟨t, h1⟩, h2⟩
    · rw [List.length_append]
      omega
    · intro hm
      rw [List.length_append]
      omega

/-- **C155**: with settings the sampler accepts and an absolute number of mutations, the pool has the
size asked for. -/
theorem C155_size (S : Settings X) (D : Draws X) (x : List X) (y : List ℚ) (pool : List X) (m : ℕ)
    (ha : S.accepted = true) (hm : S.mutateSize = .inl m) (h : createPool S D x y = some pool) :
    pool.length = S.poolSize := by
  by_cases hx : x = []
  · subst hx
    have h' : (List.range S.poolSize).mapM D.sample = some pool := h
    rw [(mapM_sample D _ _ h').1, List.length_range]
  · obtain ⟨-, -, -, -, -, -, -, h1⟩ := C155_pool S D x y pool hx h
    refine h1 ?_
    simp only [Settings.accepted, hm, Bool.and_eq_true, decide_eq_true_eq] at ha
    simp only [Settings.mutations, hm]
    exact ha.2

/-- **C155**: the pool can be made whenever random samples can, and some configurations are to be
mutated. If all mutations succeed and no two hashes are equal, every best configuration gets its
share. -/
theorem C155_full (S : Settings X) (D : Draws X) (x : List X) (y : List ℚ) (hx : x ≠ [])
    (hn : 1 ≤ S.nBest) (hs : ∀ t, ∃ f, D.sample t = some f) :
    (∃ pool, createPool S D x y = some pool) ∧
      (y.length = x.length → 1 ≤ S.patience →
        (∀ t, ∀ c ∈ x, ∃ k, D.mutate t c = some k ∧ S.same k c = false) →
        Function.Injective D.hash →
        ∃ kids fill, createPool S D x y = some (kids ++ fill) ∧
          kids.length = min x.length S.nBest * (S.mutations / min x.length S.nBest) ∧
          fill.length = S.poolSize - kids.length) := by
  have hxl : 0 < x.length := List.length_pos_iff.mpr hx
  have h0 : ¬ min x.length S.nBest = 0 := by omega
  have key : ∃ fill, randomBatch D (S.poolSize - (allChildren S D
      (S.mutations / min x.length S.nBest) (bestConfigs S x y) {}).length) = some fill :=
    mapM_total D hs _
  obtain ⟨fill, hf⟩ := key
  have he : createPool S D x y = some (allChildren S D
      (S.mutations / min x.length S.nBest) (bestConfigs S x y) {} ++ fill) := by
    unfold createPool
    rw [if_neg (by simpa using hx), if_neg h0]
    simp only [hf, Option.map_some]
  refine ⟨⟨_, he⟩, fun hy hp hm hinj => ⟨_, fill, he, ?_, ?_⟩⟩
  · rw [allChildren_full S D _ _ {} hp (fun t c hc => hm t c ?_) (by simp) hinj,
      bestConfigs_length S x y hy]
    unfold bestConfigs at hc
    obtain ⟨a, ha, rfl⟩ := List.mem_map.mp (List.mem_of_mem_take hc)
    rw [(List.mergeSort_perm _ _).mem_iff] at ha
    exact (List.of_mem_zip ha).2
  · rw [(mapM_sample D _ _ hf).1, List.length_range]

/-! ## Examples and what fails -/

/-- Settings for configurations that are numbers: a pool of three, with two mutants. -/
def three : Settings ℕ := ⟨3, 10, .inl 2, false, 1, fun a b => a == b⟩

/-- Mutations that add the number of the call, hashes that differ, and random samples. -/
def adding : Draws ℕ := ⟨fun t c => some (c + t + 1), fun t => t, fun t => some (100 + t)⟩

theorem bestConfigs_one (S : Settings ℕ) (h : S.nBest = 10) (c : ℕ) (v : ℚ) :
    bestConfigs S [c] [v] = [c] := by
  simp [bestConfigs, h]

theorem createPool_one (S : Settings ℕ) (D : Draws ℕ) (h : S.nBest = 10) (c : ℕ) (v : ℚ) :
    createPool S D [c] [v] = (randomBatch D (S.poolSize -
      (allChildren S D (S.mutations / 1) [c] {}).length)).map fun r =>
        allChildren S D (S.mutations / 1) [c] {} ++ r := by
  unfold createPool
  rw [bestConfigs_one S h]
  simp [h]

/-- Hypotheses of `C155_sample`, `C155_pool` and `C155_size`. -/
example : createPool three adding [5] [0] = some [6, 7, 100] ∧ three.accepted = true ∧
    three.mutateSize = .inl 2 := by
  rw [createPool_one _ _ rfl]
  decide +kernel

/-- Hypotheses of `C155_full`. -/
example : 1 ≤ three.nBest ∧ (∀ t, ∃ f, adding.sample t = some f) ∧ 1 ≤ three.patience ∧
    (∀ t, ∀ c ∈ [5], ∃ k, adding.mutate t c = some k ∧ three.same k c = false) ∧
    Function.Injective adding.hash := by
  refine ⟨by decide, fun t => ⟨_, rfl⟩, by decide, fun t c _ => ⟨_, rfl, ?_⟩, fun a b h => h⟩
  simp only [three, beq_eq_false_iff_ne]
  omega

/-- **C155 fails for different mutants**: without isomorphism, the same mutant is accepted twice. The
hash that is to prevent this is that of a view of a dictionary, which is different for each mutant. -/
theorem C155_duplicates_fails :
    three.allowIsomorphism = false ∧
      createPool three { adding with mutate := fun _ _ => some 7 } [5] [0] = some [7, 7, 100] := by
  rw [createPool_one _ _ rfl]
  decide +kernel

/-- **C155 fails for the number of mutants**: if a view happens to be at an address that was used before,
its hash is known, and a new mutant is refused. -/
theorem C155_refused_fails :
    createPool three { adding with hash := fun _ => 0 } [5] [0] = some [6, 100, 101] := by
  rw [createPool_one _ _ rfl]
  decide +kernel

/-- **C155 fails for the size of the pool** if the number of mutations is given as a part of the pool: a
part of more than one is accepted. -/
theorem C155_part_fails :
    ({ three with mutateSize := .inr 2 } : Settings ℕ).accepted = true ∧
      ∃ pool, createPool { three with mutateSize := .inr 2 } adding [5] [0] = some pool ∧
        pool.length = 6 := by
  refine ⟨by decide +kernel, [6, 7, 8, 9, 10, 11], ?_, rfl⟩
  rw [createPool_one _ _ rfl]
  decide +kernel

/-- **C155 fails for a batch of none**: everything is returned. -/
theorem C155_none_fails : propose (fun _ : ℕ => 0) [4] 0 = some [4] := by
  simp [propose]

end Verif.Bo.Pool
