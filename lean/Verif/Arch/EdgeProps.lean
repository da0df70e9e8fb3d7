import Verif.Arch.EdgeLemmas

/-!
# C158: copies of an edge share its shared items and nothing else
-/

namespace Verif.Arch.Edge

/-- What is visible of edge `j` is the same in both states. -/
def Unchanged (s s' : St) (j : ℕ) : Prop := ∀ k,
  read s' j k = read s j k ∧ privates s' j k = privates s j k ∧ shareds s' j k = shareds s j k

/-- C158: after any history, setting private items of an edge, one or several, whether refused or not,
changes nothing in any other edge, copies and originals included. -/
theorem C158_private_partial {l : List Op} (hl : NoTakeover l) (i j : ℕ) (hij : i ≠ j) (o : Op)
    (ho : (∃ k v, o = .set i k v false) ∨ ∃ d, o = .update i d) :
    Unchanged (run l) (step (run l) o).1 j := by
  have h := inv_history hl
  intro k'
  rcases ho with ⟨k, v, rfl⟩ | ⟨d, rfl⟩
  · unfold step
    cases heq : setItem (run l) i k v false with
    | none => simp [heq]
    | some s' =>
      simp only [heq]
      obtain ⟨_, p, q, hi, _, hf⟩ := setItem_some heq
      rw [(hf rfl).2]
      refine obs_congr (by rfl) (fun e he => ⟨put_other ?_, put_other ?_⟩) k'
      · exact (h.priv_ne hi he hij).symm
      · exact (h.disj _ (List.mem_of_getElem? hi) _ (List.mem_of_getElem? he)).symm
  · unfold step
    cases hi : (run l).edges[i]? with
    | none => simp [hi]
    | some e =>
      simp only [hi]
      refine obs_congr (by rw [(setAll_edges i d (run l)).1]) (fun e' he => ⟨?_, ?_⟩) k'
      · exact setAll_frame i d _ _ _ h e hi _ (h.priv_ne hi he hij).symm
      · exact setAll_frame i d _ _ _ h e hi _
          (h.disj _ (List.mem_of_getElem? hi) _ (List.mem_of_getElem? he)).symm

/-- C158: an item that was set is read back, and every other item of every edge stays as it was. -/
theorem C158_written (l : List Op) (i : ℕ) (k : Key) (v : ℕ) (sh : Bool)
    (hok : (step (run l) (.set i k v sh)).2 = true) :
    read (step (run l) (.set i k v sh)).1 i k = some v ∧
    ∀ j k', k' ≠ k → read (step (run l) (.set i k v sh)).1 j k' = read (run l) j k' := by
  unfold step at hok ⊢
  cases heq : setItem (run l) i k v sh with
  | none => simp [heq] at hok
  | some s' =>
    simp only [heq]
    obtain ⟨hk, p, q, hi, ht, hf⟩ := setItem_some heq
    have he := setItem_edges heq
    have key : ∀ r, s'.heap = put (run l).heap r k (some v) → ∀ j k', k' ≠ k →
        read s' j k' = read (run l) j k' := by
      intro r hs' j k' hk'
      unfold read
      rw [he.1, hs']
      simp only [put_key hk']
    cases sh with
    | false =>
      obtain ⟨_, hs'⟩ := hf rfl
      refine ⟨?_, key p (by rw [hs'])⟩
      rw [hs']
      simp [read, hk, hi, put_same]
    | true =>
      obtain ⟨hp, hs'⟩ := ht rfl
      refine ⟨?_, key q (by rw [hs'])⟩
      rw [hs']
      by_cases hpq : p = q
      · subst hpq
        simp [read, hk, hi, put_same]
      · simp [read, hk, hi, put_same, put_other hpq, hp]

/-- C158: after any history, setting a shared item of an edge sets it in exactly the edges of its family:
those see it, unless a private item of that name hides it, and no other edge changes at all; private items
are not changed anywhere. -/
theorem C158_shared_partial {l : List Op} (hl : NoTakeover l) (i : ℕ) (k : Key) (v : ℕ)
    (hok : (step (run l) (.set i k v true)).2 = true) (j : ℕ) (hj : j < (run l).edges.length) :
    (∀ k', privates (step (run l) (.set i k v true)).1 j k' = privates (run l) j k') ∧
    ((families start 0 [] l)[j]? = (families start 0 [] l)[i]? →
      shareds (step (run l) (.set i k v true)).1 j k = some v ∧
      (privates (run l) j k = none → read (step (run l) (.set i k v true)).1 j k = some v)) ∧
    ((families start 0 [] l)[j]? ≠ (families start 0 [] l)[i]? →
      Unchanged (run l) (step (run l) (.set i k v true)).1 j) := by
  have h := inv_history hl
  unfold step at hok ⊢
  cases heq : setItem (run l) i k v true with
  | none => simp [heq] at hok
  | some s' =>
    simp only [heq]
    obtain ⟨hk, p, q, hi, ht, _⟩ := setItem_some heq
    obtain ⟨_, rfl⟩ := ht rfl
    have hj' := List.getElem?_eq_getElem hj
    generalize (run l).edges[j] = e at hj'
    have fi : i < (families start 0 [] l).length := h.len ▸ (List.getElem?_eq_some_iff.mp hi).1
    have fj : j < (families start 0 [] l).length := h.len ▸ hj
    have hsame := h.same j i e (p, q) _ _ hj' hi (List.getElem?_eq_getElem fj)
      (List.getElem?_eq_getElem fi)
    have hd : e.1 ≠ q := h.disj _ (List.mem_of_getElem? hj') _ (List.mem_of_getElem? hi)
    refine ⟨fun k' => ?_, fun hf => ?_, fun hf => ?_⟩
    · simp [privates, hj', put_other hd]
    · rw [List.getElem?_eq_getElem fi, List.getElem?_eq_getElem fj] at hf
      have heq' : e.2 = q := hsame.mpr (Option.some.inj hf)
      refine ⟨by simp [shareds, hk, hj', heq', put_same], fun hp => ?_⟩
      have hp' : (run l).heap e.1 k = none := by simpa [privates, hk, hj'] using hp
      simp [read, hk, hj', put_other hd, hp', heq', put_same]
    · rw [List.getElem?_eq_getElem fi, List.getElem?_eq_getElem fj] at hf
      have hne : e.2 ≠ q := fun hq => hf (by rw [hsame.mp hq])
      refine fun k' => obs_congr (by rfl) (fun e' he' => ?_) k'
      rw [hj'] at he'
      obtain rfl := Option.some.inj he'
      exact ⟨put_other hd, put_other hne⟩

/-- C158: after any history, removing a private item removes it from that edge and changes no other
edge. -/
theorem C158_removed_partial {l : List Op} (hl : NoTakeover l) (i : ℕ) (k : Key)
    (hp : privates (run l) i k ≠ none) :
    (step (run l) (.remove i k)).2 = true ∧ privates (step (run l) (.remove i k)).1 i k = none ∧
    ∀ j, i ≠ j → Unchanged (run l) (step (run l) (.remove i k)).1 j := by
  have h := inv_history hl
  unfold privates at hp
  split at hp
  · exact absurd rfl hp
  · rename_i hk
    cases hi : (run l).edges[i]? with
    | none => simp [hi] at hp
    | some e =>
      obtain ⟨p, q⟩ := e
      have hs : ((run l).heap p k).isSome := by
        rw [hi] at hp
        simpa [Option.isSome_iff_ne_none] using hp
      unfold step
      simp only [hi, hs, if_true, true_and]
      refine ⟨by simp [privates, hi, put_same], fun j hij => ?_⟩
      refine fun k' => obs_congr (by rfl) (fun e he => ⟨put_other ?_, put_other ?_⟩) k'
      · exact (h.priv_ne hi he hij).symm
      · exact (h.disj _ (List.mem_of_getElem? hi) _ (List.mem_of_getElem? he)).symm

/-- C158: after any history a copy and a clone show what the original shows, and no edge that was there
changes. -/
theorem C158_copied_partial {l : List Op} (hl : NoTakeover l) (i : ℕ) (hi : i < (run l).edges.length)
    (o : Op) (ho : o = .copy i ∨ o = .clone i) :
    (step (run l) o).2 = true ∧
    (∀ k, read (step (run l) o).1 (run l).edges.length k = read (run l) i k ∧
      privates (step (run l) o).1 (run l).edges.length k = privates (run l) i k ∧
      shareds (step (run l) o).1 (run l).edges.length k = shareds (run l) i k) ∧
    ∀ j, j < (run l).edges.length → Unchanged (run l) (step (run l) o).1 j := by
  have h := inv_history hl
  have hi' := List.getElem?_eq_getElem hi
  generalize (run l).edges[i] = e at hi'
  obtain ⟨p, q⟩ := e
  have hlt := h.lt _ (List.mem_of_getElem? hi')
  simp only at hlt
  rcases ho with rfl | rfl
  · unfold step
    simp only [hi', true_and]
    refine ⟨fun k => ?_, fun j hj k => obs_congr (by simp [List.getElem?_append_left hj]) ?_ k⟩
    · have hq : q ≠ (run l).next := by omega
      simp [read, privates, shareds, hi', Function.update_of_ne hq]
    · intro e' he'
      have := h.lt _ (List.mem_of_getElem? he')
      exact ⟨Function.update_of_ne (by omega) _ _, Function.update_of_ne (by omega) _ _⟩
  · unfold step
    simp only [hi', true_and]
    refine ⟨fun k => ?_, fun j hj k => obs_congr (by simp [List.getElem?_append_left hj]) ?_ k⟩
    · simp [read, privates, shareds, hi']
    · intro e' he'
      have := h.lt _ (List.mem_of_getElem? he')
      simp only
      constructor
      · rw [Function.update_of_ne (by omega), Function.update_of_ne (by omega)]
      · rw [Function.update_of_ne (by omega), Function.update_of_ne (by omega)]

/-- C158: after any history in which no edge loses its operation by `remove`, every edge has one, and it
is private. -/
theorem C158_op_partial {l : List Op} (hl : NoTakeover l) (hr : ∀ o ∈ l, ∀ i, o ≠ .remove i kOp)
    (i : ℕ) (hi : i < (run l).edges.length) : ∃ v, privates (run l) i kOp = some v := by
  have := run_hasOp l start 0 [] inv_start (by simp [HasOp, start]) hl hr
  have hi' := List.getElem?_eq_getElem hi
  have h := this _ (List.mem_of_getElem? hi')
  obtain ⟨v, hv⟩ := Option.isSome_iff_exists.mp h
  refine ⟨v, ?_⟩
  have hk : internal kOp = false := by decide
  simp only [privates, hk, hi']
  exact hv

/-- C158: an operation that is refused, other than `update` with several items, changes nothing. -/
theorem C158_refused (l : List Op) (o : Op) (ho : ∀ i d, o ≠ .update i d)
    (hno : (step (run l) o).2 = false) (j : ℕ) : Unchanged (run l) (step (run l) o).1 j := by
  have : (step (run l) o).1 = run l := by
    cases o with
    | new data =>
      unfold step at hno ⊢
      rcases heq : setAll (fresh (run l)) (run l).edges.length data with ⟨s', _ | _⟩
      · simp only [heq]
      · simp [heq] at hno
    | set i k v sh =>
      unfold step at hno ⊢
      cases heq : setItem (run l) i k v sh with
      | none => simp only [heq]
      | some s' => simp [heq] at hno
    | update i d => exact absurd rfl (ho i d)
    | updateEdge i j =>
      unfold step at hno ⊢
      cases h1 : (run l).edges[i]? with
      | none => simp only [h1]
      | some e =>
        cases h2 : (run l).edges[j]? with
        | none => simp only [h1, h2]
        | some e' => simp [h1, h2] at hno
    | remove i k =>
      unfold step at hno ⊢
      cases h1 : (run l).edges[i]? with
      | none => simp only [h1]
      | some e =>
        simp only [h1] at hno ⊢
        split at hno
        · simp at hno
        · split at hno
          · simp at hno
          · rename_i h2 h3
            simp [h2, h3]
    | copy i =>
      unfold step at hno ⊢
      cases h1 : (run l).edges[i]? with
      | none => simp only [h1]
      | some e => simp [h1] at hno
    | clone i =>
      unfold step at hno ⊢
      cases h1 : (run l).edges[i]? with
      | none => simp only [h1]
      | some e => simp [h1] at hno
  rw [this]
  exact fun k => ⟨rfl, rfl, rfl⟩

/-- C158 fails for `update` with another edge: from then on the two edges are one, and a private item set
in one of them appears in the other. -/
theorem C158_update_fails : ∃ l : List Op, ∃ k : Key,
    read (run l) 1 k = none ∧ read (step (run l) (.set 0 k 5 false)).1 1 k = some 5 :=
  ⟨[.new [], .new [], .updateEdge 0 1], ['x'], by decide +kernel, by decide +kernel⟩

/-- C158 fails for items that are private in one copy and shared by another: the same name is a private
and a shared item of the first, `edge.key` and `to_dict()` disagree, and the item can no longer be set,
neither as private nor as shared. -/
theorem C158_both_fails : ∃ l : List Op, ∃ k : Key, NoTakeover l ∧
    read (run l) 0 k = some 1 ∧ allItems (run l) 0 k = some 2 ∧
    (step (run l) (.set 0 k 3 false)).2 = false ∧ (step (run l) (.set 0 k 3 true)).2 = false := by
  refine ⟨[.new [], .copy 0, .set 0 ['x'] 1 false, .set 1 ['x'] 2 true], ['x'], ?_,
    by decide +kernel, by decide +kernel, by decide +kernel, by decide +kernel⟩
  simp [NoTakeover]

/-- C158 fails for `remove` with the name of an internal item, which is not refused: nothing can be set
any more. -/
theorem C158_internal_fails : ∃ l : List Op, NoTakeover l ∧ read (run l) 0 kOp = some identity ∧
    ∀ k v sh, (step (run l) (.set 0 k v sh)).2 = false := by
  refine ⟨[.new [], .remove 0 kFinal], by simp [NoTakeover], by decide +kernel, ?_⟩
  intro k v sh
  have he : (run [.new [], .remove 0 kFinal]).edges[0]? = some (0, 1) := by decide +kernel
  have hf : (run [.new [], .remove 0 kFinal]).heap 0 kFinal = none := by decide +kernel
  have : setItem (run [.new [], .remove 0 kFinal]) 0 k v sh = none := by
    unfold setItem
    simp only [he, hf]
    split <;> rfl
  unfold step
  simp [this]

/-- C158 fails for `update` with several items of which one is refused: those before it are set. -/
theorem C158_half_fails : ∃ l : List Op, ∃ d, NoTakeover l ∧
    (step (run l) (.update 0 d)).2 = false ∧ read (run l) 0 ['x'] = none ∧
    read (step (run l) (.update 0 d)).1 0 ['x'] = some 1 := by
  refine ⟨[.new []], [(['x'], 1), (['_', 'y'], 2)], by simp [NoTakeover],
    by decide +kernel, by decide +kernel, by decide +kernel⟩

/-- Non-vacuity: an edge with an item, a copy, a clone and a copy of the copy. -/
def exHistory : List Op :=
  [.new [(kOp, 7), (['c'], 3)], .copy 0, .clone 0, .set 1 ['a'] 4 true, .copy 1, .set 3 ['c'] 9 false]

example : NoTakeover exHistory := by simp [NoTakeover, exHistory]
example : families start 0 [] exHistory = [0, 0, 2, 0] := by decide +kernel
example : (run exHistory).edges.length = 4 := by decide +kernel
example : (step (run exHistory) (.set 3 ['b'] 8 true)).2 = true := by decide +kernel
example : [0, 1, 2, 3].map (fun i => read (run exHistory) i ['a']) = [some 4, some 4, none, some 4] := by
  decide +kernel
example : [0, 1, 2, 3].map (fun i => read (run exHistory) i ['c']) = [some 3, some 3, some 3, some 9] := by
  decide +kernel
example : privates (run exHistory) 3 ['c'] ≠ none := by decide +kernel
example : (step (run exHistory) (.set 3 ['a'] 8 false)).2 = false := by decide +kernel
example : ∀ o ∈ exHistory, ∀ i, o ≠ .remove i kOp := by simp [exHistory]

end Verif.Arch.Edge
