import Verif.Arch.EdgeSpec
import Mathlib.Data.List.Nodup

/-!
# Lemmas about the items of edges
-/

namespace Verif.Arch.Edge

theorem getElem?_snoc {α : Type} (l : List α) (x y : α) (i : ℕ) :
    (l ++ [x])[i]? = some y ↔ l[i]? = some y ∨ (i = l.length ∧ y = x) := by
  rcases Nat.lt_trichotomy i l.length with h | h | h
  · rw [List.getElem?_append_left h]
    constructor
    · exact Or.inl
    · rintro (h' | ⟨h', _⟩)
      · exact h'
      · omega
  · subst h
    simp [eq_comm]
  · rw [List.getElem?_eq_none (by simp; omega), List.getElem?_eq_none (by omega)]
    simp
    omega

/-- What holds in every state: references are allocated, private dictionaries are held once and are not
shared ones, and edges hold the same shared dictionary exactly if they are of the same family. -/
structure Inv (s : St) (n : ℕ) (fam : List ℕ) : Prop where
  lt : ∀ e ∈ s.edges, e.1 < s.next ∧ e.2 < s.next
  nodup : (s.edges.map Prod.fst).Nodup
  disj : ∀ e ∈ s.edges, ∀ e' ∈ s.edges, e.1 ≠ e'.2
  len : fam.length = s.edges.length
  bound : ∀ f ∈ fam, f < n
  same : ∀ (i j : ℕ) (e e' : ℕ × ℕ) (f f' : ℕ), s.edges[i]? = some e → s.edges[j]? = some e' → fam[i]? = some f →
    fam[j]? = some f' → (e.2 = e'.2 ↔ f = f')

theorem Inv.keep {s s' : St} {n : ℕ} {fam : List ℕ} (h : Inv s n fam) (he : s'.edges = s.edges)
    (hn : s'.next = s.next) : Inv s' (n + 1) fam where
  lt := by rw [he, hn]; exact h.lt
  nodup := by rw [he]; exact h.nodup
  disj := by rw [he]; exact h.disj
  len := by rw [he]; exact h.len
  bound := fun f hf => Nat.lt_succ_of_lt (h.bound f hf)
  same := by rw [he]; exact h.same

theorem setItem_edges {s s' : St} {i k v sh} (h : setItem s i k v sh = some s') :
    s'.edges = s.edges ∧ s'.next = s.next := by
  unfold setItem at h
  split at h
  · simp at h
  · split at h
    · simp at h
    · split at h
      · simp at h
      · simp at h
      · split at h
        · split at h
          · simp at h
          · obtain rfl := (Option.some.inj h).symm
            exact ⟨rfl, rfl⟩
        · split at h
          · simp at h
          · obtain rfl := (Option.some.inj h).symm
            exact ⟨rfl, rfl⟩

theorem setAll_edges (i : ℕ) (d : List (Key × ℕ)) : ∀ s : St,
    (setAll s i d).1.edges = s.edges ∧ (setAll s i d).1.next = s.next := by
  induction d with
  | nil => intro s; exact ⟨rfl, rfl⟩
  | cons a d ih =>
    intro s
    unfold setAll
    split
    · exact ⟨rfl, rfl⟩
    · rename_i s' h
      have := setItem_edges h
      exact ⟨(ih s').1.trans this.1, (ih s').2.trans this.2⟩

/-- An edge with two new dictionaries. -/
theorem Inv.found {s s' : St} {n : ℕ} {fam : List ℕ} (h : Inv s n fam)
    (he : s'.edges = s.edges ++ [(s.next, s.next + 1)]) (hn : s'.next = s.next + 2) :
    Inv s' (n + 1) (fam ++ [n]) where
  lt := by
    rw [he, hn]
    intro e hm
    rcases List.mem_append.mp hm with hm | hm
    · have := h.lt e hm
      omega
    · obtain rfl := List.mem_singleton.mp hm
      exact ⟨by simp, by simp⟩
  nodup := by
    rw [he, List.map_append, List.nodup_append]
    refine ⟨h.nodup, by simp, ?_⟩
    intro a ha b hb
    obtain ⟨e, hm, rfl⟩ := List.mem_map.mp ha
    have := (h.lt e hm).1
    simp at hb
    omega
  disj := by
    rw [he]
    intro e hm e' hm'
    rcases List.mem_append.mp hm with hm | hm <;> rcases List.mem_append.mp hm' with hm' | hm'
    · exact h.disj e hm e' hm'
    · obtain rfl := List.mem_singleton.mp hm'
      have := (h.lt e hm).1
      simp only
      omega
    · obtain rfl := List.mem_singleton.mp hm
      have := (h.lt e' hm').2
      simp only
      omega
    · obtain rfl := List.mem_singleton.mp hm
      obtain rfl := List.mem_singleton.mp hm'
      simp
  len := by rw [he]; simp [h.len]
  bound := by
    intro f hf
    rcases List.mem_append.mp hf with hf | hf
    · exact Nat.lt_succ_of_lt (h.bound f hf)
    · obtain rfl := List.mem_singleton.mp hf
      exact Nat.lt_succ_self _
  same := by
    rw [he]
    intro i j e e' f f' h1 h2 h3 h4
    rw [getElem?_snoc] at h1 h2 h3 h4
    have il : ∀ i (e : ℕ × ℕ), s.edges[i]? = some e → i < s.edges.length :=
      fun i e hh => (List.getElem?_eq_some_iff.mp hh).1
    have fl : ∀ i (f : ℕ), fam[i]? = some f → i < s.edges.length :=
      fun i f hh => h.len ▸ (List.getElem?_eq_some_iff.mp hh).1
    have hl := h.len
    rcases h1 with h1 | ⟨h1, rfl⟩ <;> rcases h2 with h2 | ⟨h2, rfl⟩ <;>
      rcases h3 with h3 | ⟨h3, rfl⟩ <;> rcases h4 with h4 | ⟨h4, rfl⟩
    · exact h.same i j e e' f f' h1 h2 h3 h4
    · have := il _ _ h2; omega
    · have := il _ _ h1; omega
    · have := il _ _ h1; omega
    · have := fl _ _ h4; omega
    · have a1 := (h.lt e (List.mem_of_getElem? h1)).2
      have a2 := h.bound f (List.mem_of_getElem? h3)
      simp only
      omega
    · have := il _ _ h1; omega
    · have := il _ _ h1; omega
    · have := fl _ _ h3; omega
    · have := fl _ _ h3; omega
    · have a1 := (h.lt e' (List.mem_of_getElem? h2)).2
      have a2 := h.bound f' (List.mem_of_getElem? h4)
      simp only
      omega
    · have := il _ _ h2; omega
    · have := fl _ _ h3; omega
    · have := fl _ _ h3; omega
    · have := fl _ _ h4; omega
    · simp

/-- An edge with one new dictionary. -/
theorem Inv.join {s s' : St} {n : ℕ} {fam : List ℕ} (h : Inv s n fam) {i : ℕ} {p q f : ℕ}
    (hi : s.edges[i]? = some (p, q)) (hf : fam[i]? = some f)
    (he : s'.edges = s.edges ++ [(s.next, q)]) (hn : s'.next = s.next + 1) :
    Inv s' (n + 1) (fam ++ [f]) where
  lt := by
    rw [he, hn]
    intro e hm
    rcases List.mem_append.mp hm with hm | hm
    · have := h.lt e hm
      omega
    · obtain rfl := List.mem_singleton.mp hm
      have := (h.lt _ (List.mem_of_getElem? hi)).2
      simp only at this ⊢
      omega
  nodup := by
    rw [he, List.map_append, List.nodup_append]
    refine ⟨h.nodup, by simp, ?_⟩
    intro a ha b hb
    obtain ⟨e, hm, rfl⟩ := List.mem_map.mp ha
    have := (h.lt e hm).1
    simp at hb
    omega
  disj := by
    rw [he]
    intro e hm e' hm'
    have hq := h.lt _ (List.mem_of_getElem? hi)
    rcases List.mem_append.mp hm with hm | hm <;> rcases List.mem_append.mp hm' with hm' | hm'
    · exact h.disj e hm e' hm'
    · obtain rfl := List.mem_singleton.mp hm'
      exact h.disj e hm (p, q) (List.mem_of_getElem? hi)
    · obtain rfl := List.mem_singleton.mp hm
      have := (h.lt e' hm').2
      simp only
      omega
    · obtain rfl := List.mem_singleton.mp hm
      obtain rfl := List.mem_singleton.mp hm'
      simp only at hq ⊢
      omega
  len := by rw [he]; simp [h.len]
  bound := by
    intro g hg
    rcases List.mem_append.mp hg with hg | hg
    · exact Nat.lt_succ_of_lt (h.bound g hg)
    · obtain rfl := List.mem_singleton.mp hg
      exact Nat.lt_succ_of_lt (h.bound g (List.mem_of_getElem? hf))
  same := by
    rw [he]
    intro a b e e' g g' h1 h2 h3 h4
    rw [getElem?_snoc] at h1 h2 h3 h4
    have il : ∀ i (e : ℕ × ℕ), s.edges[i]? = some e → i < s.edges.length :=
      fun i e hh => (List.getElem?_eq_some_iff.mp hh).1
    have fl : ∀ i (f : ℕ), fam[i]? = some f → i < s.edges.length :=
      fun i f hh => h.len ▸ (List.getElem?_eq_some_iff.mp hh).1
    have hl := h.len
    rcases h1 with h1 | ⟨h1, rfl⟩ <;> rcases h2 with h2 | ⟨h2, rfl⟩ <;>
      rcases h3 with h3 | ⟨h3, rfl⟩ <;> rcases h4 with h4 | ⟨h4, rfl⟩
    · exact h.same a b e e' g g' h1 h2 h3 h4
    · have := il _ _ h2; omega
    · have := il _ _ h1; omega
    · have := il _ _ h1; omega
    · have := fl _ _ h4; omega
    · exact h.same a i e (p, q) g g' h1 hi h3 hf
    · have := il _ _ h1; omega
    · have := il _ _ h1; omega
    · have := fl _ _ h3; omega
    · have := fl _ _ h3; omega
    · exact h.same i b (p, q) e' g g' hi h2 hf h4
    · have := il _ _ h2; omega
    · have := fl _ _ h3; omega
    · have := fl _ _ h3; omega
    · have := fl _ _ h4; omega
    · simp

theorem Inv.step {s : St} {n : ℕ} {fam : List ℕ} (h : Inv s n fam) (o : Op)
    (ho : ∀ i j, o ≠ .updateEdge i j) :
    Inv (step s o).1 (n + 1) (if (step s o).2 then family n fam o else fam) := by
  cases o with
  | new data =>
    have e := setAll_edges s.edges.length data (fresh s)
    unfold Edge.step
    rcases heq : setAll (fresh s) s.edges.length data with ⟨s', _ | _⟩
    · simp only [heq]
      exact h.keep rfl rfl
    · rw [heq] at e
      simp only [heq]
      exact h.found e.1 e.2
  | set i k v sh =>
    unfold Edge.step
    cases heq : setItem s i k v sh with
    | none =>
      simp only [heq]
      exact h.keep rfl rfl
    | some s' =>
      have e := setItem_edges heq
      simp only [heq]
      exact h.keep e.1 e.2
  | update i data =>
    have e := setAll_edges i data s
    unfold Edge.step
    cases heq : s.edges[i]? with
    | none =>
      simp only [heq]
      exact h.keep rfl rfl
    | some _ => simpa [family, heq] using h.keep e.1 e.2
  | updateEdge i j => exact absurd rfl (ho i j)
  | remove i k =>
    unfold Edge.step
    cases heq : s.edges[i]? with
    | none =>
      simp only [heq]
      exact h.keep rfl rfl
    | some e =>
      obtain ⟨p, q⟩ := e
      simp only [heq]
      by_cases h1 : (s.heap p k).isSome
      · simp only [h1, if_true, family]
        exact h.keep rfl rfl
      · by_cases h2 : (s.heap q k).isSome
        · simp only [h1, h2, if_true, family]
          exact h.keep rfl rfl
        · simp only [h1, h2, family]
          exact h.keep rfl rfl
  | copy i =>
    unfold Edge.step
    cases heq : s.edges[i]? with
    | none =>
      simp only [heq]
      exact h.keep rfl rfl
    | some e =>
      obtain ⟨p, q⟩ := e
      have hlt : i < fam.length := h.len ▸ (List.getElem?_eq_some_iff.mp heq).1
      have hf := List.getElem?_eq_getElem hlt
      simp only [heq, if_true, family, hf]
      exact h.join heq hf rfl rfl
  | clone i =>
    unfold Edge.step
    cases heq : s.edges[i]? with
    | none =>
      simp only [heq]
      exact h.keep rfl rfl
    | some e =>
      simp only [heq, if_true, family]
      exact h.found rfl rfl

theorem inv_run : ∀ (l : List Op) (s : St) (n : ℕ) (fam : List ℕ), Inv s n fam → NoTakeover l →
    Inv (l.foldl (fun s o => (step s o).1) s) (n + l.length) (families s n fam l) := by
  intro l
  induction l with
  | nil => intro s n fam h _; exact h
  | cons o l ih =>
    intro s n fam h hl
    have := ih _ _ _ (h.step o (hl o List.mem_cons_self))
      (fun o' ho' => hl o' (List.mem_cons_of_mem _ ho'))
    rw [List.foldl_cons, List.length_cons, families, show n + (l.length + 1) = n + 1 + l.length by omega]
    exact this

theorem inv_start : Inv start 0 [] where
  lt := by simp [start]
  nodup := by simp [start]
  disj := by simp [start]
  len := rfl
  bound := by simp
  same := by simp [start]

theorem inv_history {l : List Op} (hl : NoTakeover l) : Inv (run l) l.length (families start 0 [] l) := by
  simpa [run] using inv_run l start 0 [] inv_start hl

theorem Inv.priv_ne {s : St} {n : ℕ} {fam : List ℕ} (h : Inv s n fam) {i j : ℕ} {e e' : ℕ × ℕ}
    (hi : s.edges[i]? = some e) (hj : s.edges[j]? = some e') (hij : i ≠ j) : e.1 ≠ e'.1 := by
  intro heq
  have h1 : (s.edges.map Prod.fst)[i]? = some e.1 := by simp [hi]
  have h2 : (s.edges.map Prod.fst)[j]? = some e.1 := by simp [hj, heq]
  have l1 := (List.getElem?_eq_some_iff.mp h1)
  have l2 := (List.getElem?_eq_some_iff.mp h2)
  exact hij ((h.nodup.getElem_inj_iff (hi := l1.1) (hj := l2.1)).mp (l1.2.trans l2.2.symm))

theorem put_other {h : ℕ → Dict} {r r' : ℕ} {k : Key} {v : Option ℕ} (hr : r' ≠ r) :
    put h r k v r' = h r' := by
  simp [put, Function.update_of_ne hr]

theorem put_key {h : ℕ → Dict} {r r' : ℕ} {k k' : Key} {v : Option ℕ} (hk : k' ≠ k) :
    put h r k v r' k' = h r' k' := by
  unfold put
  by_cases hr : r' = r
  · subst hr
    rw [Function.update_self, Function.update_of_ne hk]
  · rw [Function.update_of_ne hr]

theorem put_same {h : ℕ → Dict} {r : ℕ} {k : Key} {v : Option ℕ} : put h r k v r k = v := by
  simp [put]

/-- What a successful `set` does. -/
theorem setItem_some {s s' : St} {i k v sh} (h : setItem s i k v sh = some s') :
    internal k = false ∧ ∃ p q, s.edges[i]? = some (p, q) ∧
      (sh = true → s.heap p k = none ∧ s' = { s with heap := put s.heap q k (some v) }) ∧
      (sh = false → s.heap q k = none ∧ s' = { s with heap := put s.heap p k (some v) }) := by
  unfold setItem at h
  split at h
  · simp at h
  · rename_i p q hi
    split at h
    · simp at h
    · rename_i hk
      refine ⟨by simpa using hk, p, q, hi, ?_⟩
      split at h
      · simp at h
      · simp at h
      · split at h
        · rename_i hs
          split at h
          · simp at h
          · rename_i hp
            exact ⟨fun _ => ⟨by simpa using hp, (Option.some.inj h).symm⟩, fun hs' => by simp [hs] at hs'⟩
        · rename_i hs
          split at h
          · simp at h
          · rename_i hp
            exact ⟨fun hs' => absurd hs' hs, fun _ => ⟨by simpa using hp, (Option.some.inj h).symm⟩⟩

/-- Edges whose dictionaries are the same show the same. -/
theorem obs_congr {s s' : St} {j : ℕ} (he : s'.edges[j]? = s.edges[j]?)
    (h : ∀ e, s.edges[j]? = some e → s'.heap e.1 = s.heap e.1 ∧ s'.heap e.2 = s.heap e.2) (k : Key) :
    read s' j k = read s j k ∧ privates s' j k = privates s j k ∧ shareds s' j k = shareds s j k := by
  unfold read privates shareds
  rw [he]
  cases hj : s.edges[j]? with
  | none => simp
  | some e =>
    obtain ⟨h1, h2⟩ := h e hj
    simp [h1, h2]

/-- Setting private items does not touch the dictionaries of other edges. -/
theorem setAll_frame (i : ℕ) (d : List (Key × ℕ)) : ∀ (s : St) (n : ℕ) (fam : List ℕ), Inv s n fam →
    ∀ e, s.edges[i]? = some e → ∀ r, r ≠ e.1 → (setAll s i d).1.heap r = s.heap r := by
  induction d with
  | nil => intro s n fam _ e _ r _; rfl
  | cons a d ih =>
    intro s n fam h e hi r hr
    unfold setAll
    cases heq : setItem s i a.1 a.2 false with
    | none => simp
    | some s' =>
      simp only
      obtain ⟨_, p, q, hpq, _, h2⟩ := setItem_some heq
      have he := setItem_edges heq
      rw [ih s' (n + 1) fam (h.keep he.1 he.2) e (he.1 ▸ hi) r hr, (h2 rfl).2]
      rw [hi] at hpq
      obtain rfl := Option.some.inj hpq
      exact put_other hr

/-- Setting items never takes one away. -/
theorem setAll_isSome (i : ℕ) (d : List (Key × ℕ)) (k : Key) : ∀ (s : St) (r : ℕ),
    (s.heap r k).isSome → ((setAll s i d).1.heap r k).isSome := by
  induction d with
  | nil => intro s r h; exact h
  | cons a d ih =>
    intro s r h
    unfold setAll
    cases heq : setItem s i a.1 a.2 false with
    | none => exact h
    | some s' =>
      simp only
      refine ih s' r ?_
      obtain ⟨_, p, q, hpq, _, h2⟩ := setItem_some heq
      rw [(h2 rfl).2]
      simp only
      by_cases hr : r = p
      · subst hr
        by_cases hk : k = a.1
        · subst hk
          simp [put_same]
        · rw [put_key hk]
          exact h
      · rw [put_other hr]
        exact h

/-- Every edge has a private operation. -/
def HasOp (s : St) : Prop := ∀ e ∈ s.edges, (s.heap e.1 kOp).isSome

theorem fresh_hasOp {s : St} {n : ℕ} {fam : List ℕ} (h : Inv s n fam) (ho : HasOp s) :
    HasOp (fresh s) := by
  intro e he
  unfold fresh at he ⊢
  simp only at he ⊢
  rcases List.mem_append.mp he with he | he
  · have hl := (h.lt e he).1
    rw [put_other (by omega), put_other (by omega), put_other (by omega),
      Function.update_of_ne (by omega), Function.update_of_ne (by omega)]
    exact ho e he
  · obtain rfl := List.mem_singleton.mp he
    rw [put_same]
    rfl

theorem step_hasOp {s : St} {n : ℕ} {fam : List ℕ} (h : Inv s n fam) (ho : HasOp s) (o : Op)
    (h1 : ∀ i j, o ≠ .updateEdge i j) (h2 : ∀ i, o ≠ .remove i kOp) : HasOp (step s o).1 := by
  cases o with
  | new data =>
    unfold step
    rcases heq : setAll (fresh s) s.edges.length data with ⟨s', _ | _⟩
    · simpa only [heq] using ho
    · simp only [heq]
      intro e he
      have := setAll_edges s.edges.length data (fresh s)
      have h3 := setAll_isSome s.edges.length data kOp (fresh s) e.1
      rw [heq] at this h3
      exact h3 (fresh_hasOp h ho e (this.1 ▸ he))
  | set i k v sh =>
    unfold step
    cases heq : setItem s i k v sh with
    | none => simpa only [heq] using ho
    | some s' =>
      simp only [heq]
      intro e he
      rw [(setItem_edges heq).1] at he
      have hs := ho e he
      have key : ∀ r, (put s.heap r k (some v) e.1 kOp).isSome := by
        intro r
        by_cases hk : kOp = k
        · by_cases hr : e.1 = r
          · rw [hr, hk, put_same]
            rfl
          · rw [put_other hr]
            exact hs
        · rw [put_key hk]
          exact hs
      obtain ⟨_, p, q, _, ht, hf⟩ := setItem_some heq
      cases sh with
      | true => rw [(ht rfl).2]; exact key q
      | false => rw [(hf rfl).2]; exact key p
  | update i data =>
    unfold step
    cases heq : s.edges[i]? with
    | none => simpa only [heq] using ho
    | some _ =>
      simp only [heq]
      intro e he
      rw [(setAll_edges i data s).1] at he
      exact setAll_isSome i data kOp s e.1 (ho e he)
  | updateEdge i j => exact absurd rfl (h1 i j)
  | remove i k =>
    have hk : kOp ≠ k := fun hk => h2 i (by rw [hk])
    unfold step
    cases heq : s.edges[i]? with
    | none => simpa only [heq] using ho
    | some e =>
      obtain ⟨p, q⟩ := e
      simp only [heq]
      split
      · intro e he
        simp only [put_key hk]
        exact ho e he
      · split
        · intro e he
          simp only [put_key hk]
          exact ho e he
        · exact ho
  | copy i =>
    unfold step
    cases heq : s.edges[i]? with
    | none => simpa only [heq] using ho
    | some e =>
      obtain ⟨p, q⟩ := e
      simp only [heq]
      intro e he
      rcases List.mem_append.mp he with he | he
      · have hl := (h.lt e he).1
        simp only
        rw [Function.update_of_ne (by omega)]
        exact ho e he
      · obtain rfl := List.mem_singleton.mp he
        simp only [Function.update_self]
        exact ho (p, q) (List.mem_of_getElem? heq)
  | clone i =>
    unfold step
    cases heq : s.edges[i]? with
    | none => simpa only [heq] using ho
    | some e =>
      obtain ⟨p, q⟩ := e
      simp only [heq]
      intro e he
      rcases List.mem_append.mp he with he | he
      · have hl := (h.lt e he).1
        simp only
        rw [Function.update_of_ne (by omega), Function.update_of_ne (by omega)]
        exact ho e he
      · obtain rfl := List.mem_singleton.mp he
        simp only
        rw [Function.update_of_ne (by omega), Function.update_self]
        exact ho (p, q) (List.mem_of_getElem? heq)

theorem run_hasOp (l : List Op) : ∀ (s : St) (n : ℕ) (fam : List ℕ), Inv s n fam → HasOp s →
    NoTakeover l → (∀ o ∈ l, ∀ i, o ≠ .remove i kOp) →
    HasOp (l.foldl (fun s o => (step s o).1) s) := by
  induction l with
  | nil => intro s n fam _ ho _ _; exact ho
  | cons o l ih =>
    intro s n fam h ho h1 h2
    exact ih _ _ _ (h.step o (h1 o List.mem_cons_self))
      (step_hasOp h ho o (h1 o List.mem_cons_self) (h2 o List.mem_cons_self))
      (fun o' ho' => h1 o' (List.mem_cons_of_mem _ ho'))
      (fun o' ho' => h2 o' (List.mem_cons_of_mem _ ho'))

end Verif.Arch.Edge
