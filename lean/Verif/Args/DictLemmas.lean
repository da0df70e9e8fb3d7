import Verif.Space.EncodeLemmas

/-! # More lemmas about dictionaries -/

namespace Verif.Space.Dict

variable {β : Type*}

theorem keys_set_of_mem {d : Dict β} {k : String} (v : β) (h : k ∈ d.keys) :
    (d.set k v).keys = d.keys := by
  unfold set
  rw [if_pos h]
  unfold keys
  rw [List.map_map]
  apply List.map_congr_left
  intro p _
  simp only [Function.comp]
  split_ifs with hp
  · exact hp.symm
  · rfl

theorem mem_keys_set {d : Dict β} {k k' : String} {v : β} :
    k' ∈ (d.set k v).keys ↔ k' = k ∨ k' ∈ d.keys := by
  by_cases h : k ∈ d.keys
  · rw [keys_set_of_mem v h]
    constructor
    · exact Or.inr
    · rintro (rfl | h')
      · exact h
      · exact h'
  · unfold set
    rw [if_neg h]
    simp only [keys, List.map_append, List.map_cons, List.map_nil, List.mem_append,
      List.mem_singleton]
    tauto

theorem get?_cons {d : Dict β} {k k' : String} {v : β} :
    get? ((k', v) :: d) k = if k' = k then some v else get? d k := by
  unfold get?
  rw [List.find?_cons]
  by_cases h : k' = k
  · simp [h]
  · simp [h]

theorem get?_nil {k : String} : get? ([] : Dict β) k = none := rfl

theorem get?_append {d e : Dict β} {k : String} : get? (d ++ e) k = (get? d k).or (get? e k) := by
  induction d with
  | nil => simp [get?_nil]
  | cons p d ih =>
    obtain ⟨k', v⟩ := p
    rw [List.cons_append, get?_cons, get?_cons, ih]
    split_ifs <;> simp

theorem get?_eq_none_iff {d : Dict β} {k : String} : d.get? k = none ↔ k ∉ d.keys := by
  constructor
  · intro h hk
    obtain ⟨p, hp, rfl⟩ := List.mem_map.mp hk
    unfold get? at h
    rw [Option.map_eq_none_iff, List.find?_eq_none] at h
    exact h p hp (by simp)
  · exact get?_none

theorem mem_keys_iff {d : Dict β} {k : String} : k ∈ d.keys ↔ ∃ v, d.get? k = some v := by
  rw [← Option.isSome_iff_exists, ← not_iff_not, ← get?_eq_none_iff]
  simp

theorem get?_set {d : Dict β} {k k' : String} {v : β} :
    (d.set k v).get? k' = if k' = k then some v else d.get? k' := by
  unfold set
  split_ifs with hmem hk hk
  · subst hk
    induction d with
    | nil => simp [keys] at hmem
    | cons p d ih =>
      obtain ⟨a, b⟩ := p
      rw [List.map_cons]
      by_cases ha : a = k'
      · simp only [ha, if_true]
        rw [get?_cons, if_pos rfl]
      · simp only [ha, if_false]
        rw [get?_cons, if_neg ha]
        apply ih
        simp only [keys, List.map_cons, List.mem_cons] at hmem
        rcases hmem with h | h
        · exact absurd h.symm ha
        · exact h
  · clear hmem
    induction d with
    | nil => rfl
    | cons p d ih =>
      obtain ⟨a, b⟩ := p
      rw [List.map_cons]
      by_cases ha : a = k
      · simp only [ha, if_true]
        rw [get?_cons, get?_cons, if_neg (fun h => hk h.symm), if_neg (fun h => hk h.symm), ih]
      · simp only [ha, if_false]
        rw [get?_cons, get?_cons, ih]
  · subst hk
    rw [get?_append, get?_none hmem, get?_cons, if_pos rfl]
    rfl
  · rw [get?_append, get?_cons, if_neg (fun h => hk h.symm), get?_nil, Option.or_none]

/-- The last entry of a key wins in an update. -/
theorem get?_update {d e : Dict β} (k : String) :
    (d.update e).get? k = (get? e.reverse k).or (d.get? k) := by
  unfold update
  induction e generalizing d with
  | nil => simp [get?_nil]
  | cons p e ih =>
    rw [List.foldl_cons, ih, get?_set, List.reverse_cons, get?_append, get?_cons, get?_nil]
    by_cases h : k = p.1
    · subst h; simp
    · rw [if_neg h, if_neg (fun h' => h h'.symm)]; simp

theorem mem_keys_update {d e : Dict β} {k : String} :
    k ∈ (d.update e).keys ↔ k ∈ d.keys ∨ k ∈ e.keys := by
  unfold update
  induction e generalizing d with
  | nil => simp [keys]
  | cons p e ih =>
    rw [List.foldl_cons, ih, mem_keys_set]
    simp only [keys, List.map_cons, List.mem_cons]
    tauto

/-- With distinct keys, the order of a dictionary does not matter for look-ups. -/
theorem get?_reverse {d : Dict β} (hn : d.keys.Nodup) (k : String) :
    get? d.reverse k = d.get? k := by
  cases h : d.get? k with
  | none =>
    rw [get?_eq_none_iff] at h ⊢
    simpa [keys] using h
  | some v =>
    apply get?_of_mem
    · simpa [keys, List.nodup_reverse] using hn
    · exact List.mem_reverse.mpr (mem_of_get? h)

theorem nodup_set {d : Dict β} (hn : d.keys.Nodup) (k : String) (v : β) : (d.set k v).keys.Nodup := by
  by_cases h : k ∈ d.keys
  · rwa [keys_set_of_mem v h]
  · unfold set
    rw [if_neg h]
    simp only [keys, List.map_append, List.map_cons, List.map_nil]
    rw [List.nodup_append]
    refine ⟨hn, by simp, ?_⟩
    intro a ha b hb
    simp only [List.mem_singleton] at hb
    subst hb
    rintro rfl
    exact h ha

theorem nodup_update {d : Dict β} (hn : d.keys.Nodup) (e : Dict β) : (d.update e).keys.Nodup := by
  unfold update
  induction e generalizing d with
  | nil => exact hn
  | cons p e ih => exact ih (nodup_set hn _ _)

end Verif.Space.Dict
