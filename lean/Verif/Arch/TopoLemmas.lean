import Verif.Arch.TopoModel
import Mathlib.Tactic.Set

/-!
# Lemmas for calling a topology (C102)
-/

namespace Verif.Arch

variable {α : Type}

/-- The values of a graph with upward edges, by recursion on the depth. -/
def valF (edges : List (ℕ × ℕ)) (op : ℕ × ℕ → α → α) (merge : List α → α) (x : α) : ℕ → ℕ → α
  | 0, _ => x
  | k + 1, v =>
    if v ≤ 1 then x
    else mergeInputs merge
      ((edges.filter (·.2 = v)).map fun e => op e (valF edges op merge x k e.1))

theorem valF_stable {edges : List (ℕ × ℕ)} {op : ℕ × ℕ → α → α} {merge : List α → α} {x : α}
    (up : ∀ e ∈ edges, 1 ≤ e.1 ∧ e.1 < e.2) :
    ∀ k v, v ≤ k → valF edges op merge x k v = valF edges op merge x v v := by
  intro k
  induction k using Nat.strongRecOn with
  | _ k ih =>
    intro v hv
    cases k with
    | zero => rw [show v = 0 by omega]
    | succ k =>
      cases v with
      | zero => simp [valF]
      | succ v =>
        simp only [valF]
        split_ifs with h
        · rfl
        · congr 1
          apply List.map_congr_left
          intro e he
          rw [List.mem_filter] at he
          have h1 := up e he.1
          have h2 : e.2 = v + 1 := by simpa using he.2
          rw [ih k (by omega) e.1 (by omega), ← ih v (by omega) e.1 (by omega)]

theorem mergeInputs_two (merge : List α → α) {l : List α} (h : 2 ≤ l.length) :
    mergeInputs merge l = merge l := by
  match l, h with
  | _ :: _ :: _, _ => rfl

/-- In a flow every node with an incoming edge holds the merged inputs. -/
theorem Flow.eq {edges : List (ℕ × ℕ)} {op : ℕ × ℕ → α → α} {merge : List α → α} {x : α}
    {val : ℕ → α} (h : Flow edges op merge x val) (v : ℕ) (hv : ∃ u, (u, v) ∈ edges) :
    val v = mergeInputs merge ((edges.filter (·.2 = v)).map fun e => op e (val e.1)) := by
  obtain ⟨u, hu⟩ := hv
  have hm : (u, v) ∈ edges.filter (·.2 = v) := by simp [hu]
  by_cases h2 : 2 ≤ (edges.filter (·.2 = v)).length
  · rw [mergeInputs_two _ (by simpa using h2)]
    exact h.2.2 v h2
  · obtain ⟨e, hl⟩ := List.length_eq_one_iff.1 (show (edges.filter (·.2 = v)).length = 1 by
      have := List.length_pos_of_mem hm
      omega)
    rw [hl, List.mem_singleton] at hm
    subst hm
    rw [h.2.1 u v hl, hl]
    rfl

theorem flow_exists {n : ℕ} {edges : List (ℕ × ℕ)} (h : BreadthFirst n edges)
    (op : ℕ × ℕ → α → α) (merge : List α → α) (x : α) :
    ∃ val, Flow edges op merge x val := by
  have up : ∀ e ∈ edges, 1 ≤ e.1 ∧ e.1 < e.2 := fun e he => ⟨(h.up e he).1, (h.up e he).2.1⟩
  have key : ∀ v u, (u, v) ∈ edges → valF edges op merge x v v =
      mergeInputs merge ((edges.filter (·.2 = v)).map fun e => op e (valF edges op merge x e.1 e.1)) := by
    intro v u hu
    have h1 := h.up _ hu
    simp only at h1
    obtain ⟨w, rfl⟩ : ∃ w, v = w + 1 := ⟨v - 1, by omega⟩
    simp only [valF]
    rw [if_neg (by omega)]
    congr 1
    apply List.map_congr_left
    intro e he
    rw [List.mem_filter] at he
    have h2 := up e he.1
    have h3 : e.2 = w + 1 := by simpa using he.2
    rw [valF_stable up w e.1 (by omega)]
  refine ⟨fun v => valF edges op merge x v v, by simp [valF], ?_, ?_⟩
  · intro u v hv
    have hu : (u, v) ∈ edges := by
      have : (u, v) ∈ edges.filter (·.2 = v) := by rw [hv]; simp
      exact (List.mem_filter.1 this).1
    show valF edges op merge x v v = _
    rw [key v u hu, hv]
    rfl
  · intro v hv
    obtain ⟨e, he⟩ := List.exists_mem_of_length_pos (l := edges.filter (·.2 = v)) (by omega)
    have he1 := (List.mem_filter.1 he).1
    have he2 : e.2 = v := by simpa using (List.mem_filter.1 he).2
    have hu : (e.1, v) ∈ edges := by rw [← he2]; exact he1
    show valF edges op merge x v v = _
    rw [key v e.1 hu, mergeInputs_two _ (by simpa using hv)]

theorem flow_unique {n : ℕ} {edges : List (ℕ × ℕ)} (h : BreadthFirst n edges)
    {op : ℕ × ℕ → α → α} {merge : List α → α} {x : α} {a b : ℕ → α}
    (ha : Flow edges op merge x a) (hb : Flow edges op merge x b) :
    ∀ v, 1 ≤ v → v ≤ n → a v = b v := by
  intro v
  induction v using Nat.strongRecOn with
  | _ v ih =>
    intro h1 h2
    by_cases hv : v = 1
    · rw [hv, ha.1, hb.1]
    · have hm := h.met v (by omega) h2
      rw [ha.eq v hm, hb.eq v hm]
      congr 1
      apply List.map_congr_left
      intro e he
      rw [List.mem_filter] at he
      have h3 := h.up e he.1
      have h4 : e.2 = v := by simpa using he.2
      rw [ih e.1 (by omega) h3.1 (by omega)]

/-! ## The loop -/

/-- What has arrived at a node from the nodes before `c`. -/
def arrived (T : Topology α) (val : ℕ → α) (c v : ℕ) : List α :=
  ((T.edges.filter (·.2 = v)).filter (·.1 < c)).map fun e => T.op e (val e.1)

theorem filter_lt_succ (c v : ℕ) : ∀ l : List (ℕ × ℕ), (∀ e ∈ l, e.2 = v) →
    (l.map (·.1)).Pairwise (· < ·) →
    l.filter (·.1 < c + 1) = l.filter (·.1 < c) ++ if (c, v) ∈ l then [(c, v)] else [] := by
  intro l
  induction l with
  | nil => intro _ _; simp
  | cons e l ih =>
    intro hv hp
    simp only [List.map_cons, List.pairwise_cons, List.mem_map, forall_exists_index, and_imp] at hp
    have ih' := ih (fun e' he' => hv e' (by simp [he'])) hp.2
    have he := hv e (by simp)
    rcases Nat.lt_trichotomy e.1 c with hlt | heq | hgt
    · rw [List.filter_cons_of_pos (by simpa using Nat.lt_succ_of_lt hlt),
        List.filter_cons_of_pos (by simpa using hlt), ih', List.cons_append]
      congr 2
      have : (c, v) ≠ e := by rintro rfl; simp at hlt
      simp [this]
    · have hnil : ∀ k, k ≤ c + 1 → l.filter (·.1 < k) = [] := by
        intro k hk
        rw [List.filter_eq_nil_iff]
        intro e' he'
        have := hp.1 e'.1 e' he' rfl
        simp; omega
      have : e = (c, v) := by rw [← heq, ← he]
      rw [List.filter_cons_of_pos (by simp [heq]), List.filter_cons_of_neg (by simp [heq]),
        hnil (c + 1) (Nat.le_refl _), hnil c (Nat.le_succ c), this]
      simp
    · have hgt' : ∀ e' ∈ e :: l, c < e'.1 := by
        intro e' he'
        rcases List.mem_cons.1 he' with rfl | he'
        · exact hgt
        · exact Nat.lt_trans hgt (hp.1 e'.1 e' he' rfl)
      have hnil : ∀ k, k ≤ c + 1 → (e :: l).filter (·.1 < k) = [] := by
        intro k hk
        rw [List.filter_eq_nil_iff]
        intro e' he'
        have := hgt' e' he'
        simp; omega
      rw [hnil _ (Nat.le_refl _), hnil _ (Nat.le_succ c), if_neg]
      · rfl
      · intro hm
        have := hgt' _ hm
        simp at this

theorem arrived_succ (T : Topology α) {n : ℕ} (h : BreadthFirst n T.edges) (val : ℕ → α)
    (c v : ℕ) : arrived T val (c + 1) v =
      arrived T val c v ++ if v ∈ T.successors c then [T.op (c, v) (val c)] else [] := by
  unfold arrived
  rw [filter_lt_succ c v _ (fun e he => by simpa using (List.mem_filter.1 he).2) (h.inc v),
    List.map_append]
  congr 1
  have : (c, v) ∈ T.edges.filter (·.2 = v) ↔ v ∈ T.successors c := by
    simp [Topology.successors]
  by_cases hm : v ∈ T.successors c
  · rw [if_pos (this.2 hm), if_pos hm]; rfl
  · rw [if_neg (fun h' => hm (this.1 h')), if_neg hm]; rfl

theorem mem_successors (T : Topology α) (u v : ℕ) : v ∈ T.successors u ↔ (u, v) ∈ T.edges := by
  simp [Topology.successors]

/-- Node `v` has been met by the nodes before `c`. -/
def Met (T : Topology α) (c v : ℕ) : Prop := v = 1 ∨ ∃ u, u < c ∧ (u, v) ∈ T.edges

theorem arrived_nil (T : Topology α) (val : ℕ → α) (c v : ℕ) :
    arrived T val c v = [] ↔ ¬ ∃ u, u < c ∧ (u, v) ∈ T.edges := by
  unfold arrived
  rw [List.map_eq_nil_iff, List.filter_eq_nil_iff]
  constructor
  · rintro h ⟨u, hu, he⟩
    have := h (u, v) (by simp [he])
    simp at this
    omega
  · rintro h ⟨a, b⟩ he
    simp only [List.mem_filter, decide_eq_true_eq] at he
    intro hlt
    simp only [decide_eq_true_eq] at hlt
    exact h ⟨a, hlt, by rw [← he.2]; exact he.1⟩

/-- The contents of `predecessor_inputs`. -/
def pinsOf (x : α) (arr : ℕ → List α) (v : ℕ) : Option (List α) :=
  if v = 1 then some [x] else if arr v = [] then none else some (arr v)

/-- The inner rounds: the successors of the current node. -/
theorem callLoop_inner (T : Topology α) {n : ℕ} (h : BreadthFirst n T.edges) (val : ℕ → α) (x : α)
    (c : ℕ) : ∀ (rest pre : List ℕ), T.successors c = pre ++ rest →
    ∀ (nexts : List ℕ), nexts.Pairwise (· < ·) →
    (∀ v, v ∈ nexts ↔ c < v ∧ (Met T c v ∨ v ∈ pre)) →
    ∃ nexts' : List ℕ, nexts'.Pairwise (· < ·) ∧ (∀ v, v ∈ nexts' ↔ c + 1 ≤ v ∧ Met T (c + 1) v) ∧
    ∀ fuel, callLoop T (rest.length + fuel) ⟨c, rest, nexts, some (val c), pinsOf x fun v =>
        arrived T val c v ++ if v ∈ pre then [T.op (c, v) (val c)] else []⟩ =
      callLoop T fuel ⟨c, [], nexts', some (val c), pinsOf x (arrived T val (c + 1))⟩ := by
  intro rest
  induction rest with
  | nil =>
    intro pre hs nexts hn hm
    rw [List.append_nil] at hs
    refine ⟨nexts, hn, ?_, ?_⟩
    · intro v
      rw [hm v]
      constructor
      · rintro ⟨h1, (h2 | ⟨u, h2, h3⟩) | h2⟩
        · exact ⟨h1, .inl h2⟩
        · exact ⟨h1, .inr ⟨u, by omega, h3⟩⟩
        · exact ⟨h1, .inr ⟨c, by omega, (mem_successors T c v).1 (by rw [hs]; exact h2)⟩⟩
      · rintro ⟨h1, h2 | ⟨u, h2, h3⟩⟩
        · exact ⟨h1, .inl (.inl h2)⟩
        · by_cases huc : u = c
          · subst huc
            exact ⟨h1, .inr (by rw [← hs]; exact (mem_successors T u v).2 h3)⟩
          · exact ⟨h1, .inl (.inr ⟨u, by omega, h3⟩)⟩
    · intro fuel
      have : (fun v => arrived T val c v ++ if v ∈ pre then [T.op (c, v) (val c)] else []) =
          arrived T val (c + 1) := by
        funext v
        rw [arrived_succ T h, hs]
      rw [this]
      simp
  | cons s rest ih =>
    intro pre hs nexts hn hm
    have hs' : T.successors c = (pre ++ [s]) ++ rest := by rw [hs]; simp
    have hedge : (c, s) ∈ T.edges := (mem_successors T c s).1 (by rw [hs]; simp)
    have hcs := h.up _ hedge
    simp only at hcs
    have hout : (pre ++ s :: rest).Pairwise (· < ·) := by rw [← hs]; exact h.out c
    rw [List.pairwise_append] at hout
    have hspre : s ∉ pre := fun hp => absurd (hout.2.2 s hp s (by simp)) (by omega)
    set nexts1 := if s ∈ nexts then nexts else nexts ++ [s] with hn1
    have hsort : nexts1.Pairwise (· < ·) := by
      rw [hn1]
      by_cases hin : s ∈ nexts
      · rw [if_pos hin]; exact hn
      · rw [if_neg hin, List.pairwise_append]
        refine ⟨hn, by simp, ?_⟩
        intro w hw b hb
        rw [List.mem_singleton] at hb
        subst hb
        by_contra hlt
        have hw' := (hm w).1 hw
        rcases hw'.2 with (h1 | ⟨u, h1, h2⟩) | h1
        · omega
        · obtain ⟨t, ht, hte⟩ := h.first u w b h2 (by omega) (by omega)
          exact hin ((hm b).2 ⟨by omega, .inl (.inr ⟨t, by omega, hte⟩)⟩)
        · exact hlt (hout.2.2 w h1 b (by simp))
    have hmem : ∀ v, v ∈ nexts1 ↔ c < v ∧ (Met T c v ∨ v ∈ pre ++ [s]) := by
      intro v
      rw [hn1]
      by_cases hin : s ∈ nexts
      · rw [if_pos hin, hm v]
        constructor
        · rintro ⟨h1, h2 | h2⟩
          · exact ⟨h1, .inl h2⟩
          · exact ⟨h1, .inr (by simp [h2])⟩
        · rintro ⟨h1, h2 | h2⟩
          · exact ⟨h1, .inl h2⟩
          · rcases List.mem_append.1 h2 with h2 | h2
            · exact ⟨h1, .inr h2⟩
            · rw [List.mem_singleton] at h2
              subst h2
              exact (hm v).1 hin
      · rw [if_neg hin, List.mem_append, List.mem_append, List.mem_singleton, hm v]
        constructor
        · rintro (⟨h1, h2 | h2⟩ | h2)
          · exact ⟨h1, .inl h2⟩
          · exact ⟨h1, .inr (.inl h2)⟩
          · subst h2; exact ⟨by omega, .inr (.inr rfl)⟩
        · rintro ⟨h1, h2 | h2 | h2⟩
          · exact .inl ⟨h1, .inl h2⟩
          · exact .inl ⟨h1, .inr h2⟩
          · exact .inr h2
    obtain ⟨nexts', h1, h2, h3⟩ := ih (pre ++ [s]) hs' nexts1 hsort hmem
    refine ⟨nexts', h1, h2, ?_⟩
    intro fuel
    rw [← h3 fuel]
    have hlen : (s :: rest).length + fuel = (rest.length + fuel) + 1 := by
      simp only [List.length_cons]; omega
    rw [hlen, callLoop, if_neg (by simp)]
    simp only [callStep]
    have hpins : (fun w => if w = s then
        some (((pinsOf x (fun v => arrived T val c v ++
          if v ∈ pre then [T.op (c, v) (val c)] else []) s).getD []) ++ [T.op (c, s) (val c)])
        else pinsOf x (fun v => arrived T val c v ++
          if v ∈ pre then [T.op (c, v) (val c)] else []) w) =
        pinsOf x fun v => arrived T val c v ++
          if v ∈ pre ++ [s] then [T.op (c, v) (val c)] else [] := by
      funext w
      by_cases hw : w = s
      · subst hw
        simp only [pinsOf, if_neg hspre, if_true, List.append_nil]
        rw [if_neg (show ¬ w = 1 by omega), if_neg (show ¬ w = 1 by omega)]
        by_cases ha : arrived T val c w = []
        · simp [ha]
        · simp [ha]
      · by_cases hwp : w ∈ pre
        · simp [pinsOf, hw, hwp]
        · simp [pinsOf, hw, hwp]
    rw [hpins]

/-- The number of edges that leave `c` or a later node. -/
def remaining (T : Topology α) (c : ℕ) : ℕ := (T.edges.filter (c ≤ ·.1)).length

theorem remaining_succ (T : Topology α) (c : ℕ) :
    remaining T c = (T.successors c).length + remaining T (c + 1) := by
  unfold remaining Topology.successors
  rw [List.length_map]
  induction T.edges with
  | nil => rfl
  | cons e l ih =>
    simp only [List.filter_cons, decide_eq_true_eq]
    rcases Nat.lt_trichotomy e.1 c with h | h | h
    · rw [if_neg (by omega), if_neg (by omega), if_neg (by omega), ih]
    · rw [if_pos (by omega), if_pos h, if_neg (by omega), List.length_cons, List.length_cons, ih]
      omega
    · rw [if_pos (by omega), if_neg (by omega), if_pos (by omega), List.length_cons,
        List.length_cons, ih]
      omega

/-- At the turn of a node all its inputs have arrived. -/
theorem arrived_all (T : Topology α) {n : ℕ} (h : BreadthFirst n T.edges) (val : ℕ → α) (c : ℕ) :
    arrived T val c c = (T.edges.filter (·.2 = c)).map fun e => T.op e (val e.1) := by
  unfold arrived
  rw [List.filter_eq_self.2]
  intro e he
  rw [List.mem_filter] at he
  have h1 := h.up e he.1
  have h2 : e.2 = c := by simpa using he.2
  simpa using (by omega : e.1 < c)

/-- The rounds of one node. -/
theorem callLoop_node (T : Topology α) {n : ℕ} (h : BreadthFirst n T.edges) {val : ℕ → α} {x : α}
    (hf : Flow T.edges T.op T.merge x val) (c : ℕ) (h1 : 1 ≤ c) (hc : c ≤ n)
    (d : ℕ) (i : Option α) (nexts : List ℕ) (hn : nexts.Pairwise (· < ·))
    (hm : ∀ v, v ∈ nexts ↔ c ≤ v ∧ Met T c v) :
    ∃ nexts' : List ℕ, nexts'.Pairwise (· < ·) ∧ (∀ v, v ∈ nexts' ↔ c + 1 ≤ v ∧ Met T (c + 1) v) ∧
    ∀ fuel, callLoop T (1 + (T.successors c).length + fuel)
        ⟨d, [], nexts, i, pinsOf x (arrived T val c)⟩ =
      callLoop T fuel ⟨c, [], nexts', some (val c), pinsOf x (arrived T val (c + 1))⟩ := by
  have hmet : Met T c c := by
    by_cases hc1 : c = 1
    · exact .inl hc1
    · obtain ⟨u, hu⟩ := h.met c (by omega) hc
      exact .inr ⟨u, (h.up _ hu).2.1, hu⟩
  have hcn : c ∈ nexts := (hm c).2 ⟨Nat.le_refl _, hmet⟩
  obtain ⟨a, l, rfl⟩ : ∃ a l, nexts = a :: l := by
    cases nexts with
    | nil => simp at hcn
    | cons a l => exact ⟨a, l, rfl⟩
  rw [List.pairwise_cons] at hn
  have hac : a = c := by
    have ha := ((hm a).1 (by simp)).1
    rcases List.mem_cons.1 hcn with hh | hh
    · exact hh.symm
    · have := hn.1 c hh
      omega
  subst hac
  have hm' : ∀ v, v ∈ l ↔ a < v ∧ (Met T a v ∨ v ∈ ([] : List ℕ)) := by
    intro v
    constructor
    · intro hv
      exact ⟨hn.1 v hv, .inl ((hm v).1 (by simp [hv])).2⟩
    · rintro ⟨h2, h3 | h3⟩
      · rcases List.mem_cons.1 ((hm v).2 ⟨by omega, h3⟩) with hh | hh
        · omega
        · exact hh
      · simp at h3
  obtain ⟨nexts', g1, g2, g3⟩ := callLoop_inner T h val x a (T.successors a) [] (by simp) l hn.2 hm'
  refine ⟨nexts', g1, g2, ?_⟩
  intro fuel
  rw [← g3 fuel, show 1 + (T.successors a).length + fuel = ((T.successors a).length + fuel) + 1 by omega,
    callLoop, if_neg (by simp)]
  simp only [callStep, List.not_mem_nil, if_false, List.append_nil]
  by_cases ha1 : a = 1
  · subst ha1
    simp only [pinsOf, if_true, mergeInputs, hf.1]
  · have hin := h.met a (by omega) hc
    have hne : arrived T val a a ≠ [] := by
      rw [Ne, arrived_nil, not_not]
      obtain ⟨u, hu⟩ := hin
      exact ⟨u, (h.up _ hu).2.1, hu⟩
    have hp : pinsOf x (arrived T val a) a = some (arrived T val a a) := by
      rw [pinsOf, if_neg ha1, if_neg hne]
    simp only [hp]
    rw [arrived_all T h, ← hf.eq a hin]

theorem callLoop_outer (T : Topology α) {n : ℕ} (h : BreadthFirst n T.edges) {val : ℕ → α} {x : α}
    (hf : Flow T.edges T.op T.merge x val) :
    ∀ (k c : ℕ), c + k = n → 1 ≤ c → ∀ (d : ℕ) (i : Option α) (nexts : List ℕ),
    nexts.Pairwise (· < ·) → (∀ v, v ∈ nexts ↔ c ≤ v ∧ Met T c v) →
    ∀ fuel, callLoop T ((k + 1) + remaining T c + fuel)
      ⟨d, [], nexts, i, pinsOf x (arrived T val c)⟩ = some (val n) := by
  intro k
  induction k with
  | zero =>
    intro c hc h1 d i nexts hn hm fuel
    obtain ⟨nexts', -, g2, g3⟩ := callLoop_node T h hf c h1 (by omega) d i nexts hn hm
    have hnil : nexts' = [] := by
      rw [List.eq_nil_iff_forall_not_mem]
      intro v hv
      obtain ⟨a1, a2 | ⟨u, -, a3⟩⟩ := (g2 v).1 hv
      · omega
      · have := (h.up _ a3).2.2
        simp only at this
        omega
    rw [remaining_succ, show 0 + 1 + ((T.successors c).length + remaining T (c + 1)) + fuel =
      1 + (T.successors c).length + (remaining T (c + 1) + fuel) by omega, g3, hnil]
    rw [callLoop.eq_def]
    simp [show c = n by omega]
  | succ k ih =>
    intro c hc h1 d i nexts hn hm fuel
    obtain ⟨nexts', g1, g2, g3⟩ := callLoop_node T h hf c h1 (by omega) d i nexts hn hm
    rw [remaining_succ, show k + 1 + 1 + ((T.successors c).length + remaining T (c + 1)) + fuel =
      1 + (T.successors c).length + ((k + 1) + remaining T (c + 1) + fuel) by omega, g3]
    exact ih (c + 1) (by omega) (by omega) c _ nexts' g1 g2 fuel

/-! ## The start -/

theorem mem_foldl_nodes (w : ℕ) : ∀ (l : List (ℕ × ℕ)) (ns : List ℕ),
    w ∈ l.foldl (fun ns e =>
      let ns := if e.1 ∈ ns then ns else ns ++ [e.1]
      if e.2 ∈ ns then ns else ns ++ [e.2]) ns ↔ w ∈ ns ∨ ∃ e ∈ l, w = e.1 ∨ w = e.2 := by
  intro l
  induction l with
  | nil => simp
  | cons e l ih =>
    intro ns
    rw [List.foldl_cons, ih]
    have : (w ∈ (let ns := if e.1 ∈ ns then ns else ns ++ [e.1]
        if e.2 ∈ ns then ns else ns ++ [e.2])) ↔ w ∈ ns ∨ w = e.1 ∨ w = e.2 := by
      by_cases h1 : e.1 ∈ ns
      · simp only [h1, if_true]
        by_cases h2 : e.2 ∈ ns
        · simp only [h2, if_true]
          constructor
          · exact .inl
          · rintro (h | rfl | rfl) <;> assumption
        · simp only [h2, if_false, List.mem_append, List.mem_singleton]
          constructor
          · rintro (h | h)
            · exact .inl h
            · exact .inr (.inr h)
          · rintro (h | rfl | h)
            · exact .inl h
            · exact .inl h1
            · exact .inr h
      · simp only [h1, if_false]
        by_cases h2 : e.2 ∈ ns ++ [e.1]
        · simp only [h2, if_true]
          rw [List.mem_append, List.mem_singleton] at h2 ⊢
          constructor
          · rintro (h | h)
            · exact .inl h
            · exact .inr (.inl h)
          · rintro (h | h | rfl)
            · exact .inl h
            · exact .inr h
            · exact h2
        · simp only [h2, if_false, List.mem_append, List.mem_singleton, or_assoc]
    rw [this]
    simp only [List.mem_cons, exists_eq_or_imp, or_assoc]

theorem mem_nodes (T : Topology α) (w : ℕ) :
    w ∈ T.nodes ↔ ∃ e ∈ T.edges, w = e.1 ∨ w = e.2 := by
  rw [Topology.nodes, mem_foldl_nodes]
  simp

theorem source (T : Topology α) {n : ℕ} (h : BreadthFirst n T.edges) (hn : 2 ≤ n) :
    T.nodes.find? (fun v => T.inDegree v = 0) = some 1 := by
  have hdeg : ∀ v, T.inDegree v = 0 ↔ ¬ ∃ u, (u, v) ∈ T.edges := by
    intro v
    rw [Topology.inDegree, List.length_eq_zero_iff, List.filter_eq_nil_iff]
    constructor
    · rintro h' ⟨u, hu⟩
      exact h' _ hu (by simp)
    · rintro h' ⟨a, b⟩ he hb
      have : b = v := by simpa using hb
      exact h' ⟨a, by rw [← this]; exact he⟩
  obtain ⟨u, hu⟩ := h.met 2 (Nat.le_refl _) hn
  have hu1 : u = 1 := by
    have := h.up _ hu
    simp only at this
    omega
  subst hu1
  have h1 : (1 : ℕ) ∈ T.nodes := (mem_nodes T 1).2 ⟨_, hu, .inl rfl⟩
  have h0 : T.inDegree 1 = 0 := by
    rw [hdeg]
    rintro ⟨w, hw⟩
    have := h.up _ hw
    simp only at this
    omega
  cases hfind : T.nodes.find? (fun v => T.inDegree v = 0) with
  | none =>
    rw [List.find?_eq_none] at hfind
    exact absurd h0 (by simpa using hfind 1 h1)
  | some v =>
    have hv := List.find?_some hfind
    simp only [decide_eq_true_eq, hdeg] at hv
    have hmem := List.mem_of_find?_eq_some hfind
    obtain ⟨e, he, hve⟩ := (mem_nodes T v).1 hmem
    have hr := h.up e he
    by_cases hv1 : v = 1
    · rw [hv1]
    · exact absurd (h.met v (by omega) (by omega)) hv

theorem call_eq (T : Topology α) {n : ℕ} (h : BreadthFirst n T.edges) (hn : 2 ≤ n) {val : ℕ → α}
    {x : α} (hf : Flow T.edges T.op T.merge x val) {fuel : ℕ} (hfuel : n + T.edges.length ≤ fuel) :
    call T fuel x = some (val n) := by
  have hrem : remaining T 1 ≤ T.edges.length := List.length_filter_le _ _
  have hp : (fun v => if v = 1 then some [x] else none) = pinsOf x (arrived T val 1) := by
    funext v
    have : arrived T val 1 v = [] := by
      rw [arrived_nil]
      rintro ⟨u, hu, he⟩
      have := (h.up _ he).1
      simp only at this
      omega
    simp [pinsOf, this]
  rw [call, source T h hn]
  simp only [hp]
  obtain ⟨k, hk⟩ : ∃ k, fuel = (n - 1 + 1) + remaining T 1 + k :=
    ⟨fuel - (n - 1 + 1 + remaining T 1), by omega⟩
  rw [hk]
  refine callLoop_outer T h hf (n - 1) 1 (by omega) (Nat.le_refl _) _ _ _ (by simp) ?_ _
  intro v
  rw [List.mem_singleton]
  constructor
  · rintro rfl; exact ⟨Nat.le_refl _, .inl rfl⟩
  · rintro ⟨-, h1 | ⟨u, hu, he⟩⟩
    · exact h1
    · have := (h.up _ he).1
      simp only at this
      omega

/-! ## The topologies of the module -/

theorem sorted_by_target {edges : List (ℕ × ℕ)}
    (h : edges.Pairwise fun e f => e.2 < f.2 ∨ e.2 = f.2 ∧ e.1 < f.1) :
    (∀ u, ((edges.filter (·.1 = u)).map (·.2)).Pairwise (· < ·)) ∧
    (∀ v, ((edges.filter (·.2 = v)).map (·.1)).Pairwise (· < ·)) := by
  constructor
  · intro u
    rw [List.pairwise_map]
    refine (h.sublist List.filter_sublist).imp_of_mem ?_
    intro a b ha hb hab
    have h1 : a.1 = u := by simpa using (List.mem_filter.1 ha).2
    have h2 : b.1 = u := by simpa using (List.mem_filter.1 hb).2
    omega
  · intro v
    rw [List.pairwise_map]
    refine (h.sublist List.filter_sublist).imp_of_mem ?_
    intro a b ha hb hab
    have h1 : a.2 = v := by simpa using (List.mem_filter.1 ha).2
    have h2 : b.2 = v := by simpa using (List.mem_filter.1 hb).2
    omega

theorem mem_sequential (n : ℕ) (e : ℕ × ℕ) :
    e ∈ sequentialEdges n ↔ 1 ≤ e.1 ∧ e.1 ≤ n ∧ e.2 = e.1 + 1 := by
  obtain ⟨a, b⟩ := e
  simp only [sequentialEdges, List.mem_map, List.mem_range, Prod.mk.injEq]
  constructor
  · rintro ⟨i, hi, rfl, rfl⟩; omega
  · rintro ⟨h1, h2, h3⟩; exact ⟨a - 1, by omega, by omega, by omega⟩

theorem mem_dense (n : ℕ) (e : ℕ × ℕ) : e ∈ denseEdges n ↔ 1 ≤ e.1 ∧ e.1 < e.2 ∧ e.2 ≤ n := by
  obtain ⟨a, b⟩ := e
  simp only [denseEdges, List.mem_flatMap, List.mem_map, List.mem_range, Prod.mk.injEq]
  constructor
  · rintro ⟨j, hj, i, hi, rfl, rfl⟩; omega
  · rintro ⟨h1, h2, h3⟩; exact ⟨b - 1, by omega, a - 1, by omega, by omega, by omega⟩

theorem sorted_sequential (n : ℕ) : (sequentialEdges n).Pairwise
    fun e f => e.2 < f.2 ∨ e.2 = f.2 ∧ e.1 < f.1 := by
  rw [sequentialEdges, List.pairwise_map]
  exact List.pairwise_lt_range.imp fun h => .inl (by simp only; omega)

theorem sorted_dense (n : ℕ) : (denseEdges n).Pairwise
    fun e f => e.2 < f.2 ∨ e.2 = f.2 ∧ e.1 < f.1 := by
  rw [denseEdges, List.pairwise_flatMap]
  refine ⟨?_, ?_⟩
  · intro j _
    rw [List.pairwise_map]
    exact List.pairwise_lt_range.imp fun h => .inr ⟨rfl, by simp only; omega⟩
  · refine List.pairwise_lt_range.imp ?_
    intro a b hab e he f hf
    simp only [List.mem_map, List.mem_range] at he hf
    obtain ⟨i, hi, rfl⟩ := he
    obtain ⟨k, hk, rfl⟩ := hf
    exact .inl (by simp only; omega)

theorem sorted_builtin {n : ℕ} {edges : List (ℕ × ℕ)} (h : Builtin n edges) :
    edges.Pairwise fun e f => e.2 < f.2 ∨ e.2 = f.2 ∧ e.1 < f.1 := by
  cases h with
  | sequential n => exact sorted_sequential _
  | dense n => exact sorted_dense _
  | residual => decide
  | diamond => decide
  | diamondMid => decide

theorem nodup_builtin {n : ℕ} {edges : List (ℕ × ℕ)} (h : Builtin n edges) : edges.Nodup := by
  refine (sorted_builtin h).imp ?_
  rintro a b hab rfl
  omega

theorem breadthFirst_builtin {n : ℕ} {edges : List (ℕ × ℕ)} (h : Builtin n edges) :
    2 ≤ n ∧ BreadthFirst n edges := by
  have hs := sorted_by_target (sorted_builtin h)
  cases h with
  | sequential n =>
    refine ⟨by omega, ?_, ?_, hs.1, hs.2, ?_⟩
    · intro e he
      rw [mem_sequential] at he
      omega
    · intro v h1 h2
      exact ⟨v - 1, (mem_sequential _ _).2 ⟨by simp only; omega, by simp only; omega, by simp only; omega⟩⟩
    · intro u v w huv h1 h2
      rw [mem_sequential] at huv
      simp only at huv
      exact ⟨w - 1, by omega,
        (mem_sequential _ _).2 ⟨by simp only; omega, by simp only; omega, by simp only; omega⟩⟩
  | dense n =>
    refine ⟨by omega, ?_, ?_, hs.1, hs.2, ?_⟩
    · intro e he
      rw [mem_dense] at he
      omega
    · intro v h1 h2
      exact ⟨1, (mem_dense _ _).2 ⟨by simp only; omega, by simp only; omega, by simp only; omega⟩⟩
    · intro u v w huv h1 h2
      rw [mem_dense] at huv
      simp only at huv
      exact ⟨1, by omega,
        (mem_dense _ _).2 ⟨by simp only; omega, by simp only; omega, by simp only; omega⟩⟩
  | residual => exact ⟨by omega, small _ hs (by decide) (by decide) (by decide)⟩
  | diamond => exact ⟨by omega, small _ hs (by decide) (by decide) (by decide)⟩
  | diamondMid => exact ⟨by omega, small _ hs (by decide) (by decide) (by decide)⟩
where
  small {n : ℕ} (edges : List (ℕ × ℕ))
      (hs : (∀ u, ((edges.filter (·.1 = u)).map (·.2)).Pairwise (· < ·)) ∧
        (∀ v, ((edges.filter (·.2 = v)).map (·.1)).Pairwise (· < ·)))
      (up : ∀ e ∈ edges, 1 ≤ e.1 ∧ e.1 < e.2 ∧ e.2 ≤ n)
      (met : ∀ v ∈ List.range' 2 (n - 1), ∃ e ∈ edges, e.2 = v)
      (first : ∀ e ∈ edges, ∀ w ∈ List.range' 2 (e.2 - 1), ∃ f ∈ edges, f.2 = w ∧ f.1 ≤ e.1) :
      BreadthFirst n edges := by
    refine ⟨up, ?_, hs.1, hs.2, ?_⟩
    · intro v h1 h2
      obtain ⟨⟨a, b⟩, he, rfl⟩ := met v (by rw [List.mem_range'_1]; omega)
      exact ⟨a, he⟩
    · intro u v w huv h1 h2
      obtain ⟨⟨a, b⟩, he, rfl, hle⟩ := first (u, v) huv w (by rw [List.mem_range'_1]; simp only; omega)
      exact ⟨a, hle, he⟩

theorem zip_find {edges : List (ℕ × ℕ)} : ∀ {ops : List (α → α)}, ops.length = edges.length →
    edges.Nodup → ∀ {i : ℕ} {e : ℕ × ℕ} {f : α → α}, edges[i]? = some e → ops[i]? = some f →
    (edges.zip ops).find? (·.1 = e) = some (e, f) := by
  induction edges with
  | nil => intro ops _ _ i e f h; simp at h
  | cons a edges ih =>
    intro ops hl hn i e f he hf
    cases ops with
    | nil => simp at hf
    | cons g ops =>
      rw [List.nodup_cons] at hn
      cases i with
      | zero =>
        simp only [List.getElem?_cons_zero, Option.some.injEq] at he hf
        subst he hf
        simp
      | succ i =>
        simp only [List.getElem?_cons_succ] at he hf
        have hne : a ≠ e := by rintro rfl; exact hn.1 (List.mem_of_getElem? he)
        rw [List.zip_cons_cons, List.find?_cons_of_neg (by simpa using hne)]
        exact ih (by simpa using hl) hn.2 he hf

theorem mkTopology_edges {edges : List (ℕ × ℕ)} {ops : List (α → α)} (merge : List α → α)
    (h : ops.length = edges.length) : (mkTopology edges ops merge).edges = edges := by
  show (edges.zip ops).map (·.1) = edges
  rw [← List.unzip_fst, List.unzip_zip h.symm]

theorem mkTopology_op {edges : List (ℕ × ℕ)} {ops : List (α → α)} (merge : List α → α)
    (h : ops.length = edges.length) (hn : edges.Nodup) {i : ℕ} {e : ℕ × ℕ} {f : α → α}
    (he : edges[i]? = some e) (hf : ops[i]? = some f) : (mkTopology edges ops merge).op e = f := by
  show (((edges.zip ops).find? (·.1 = e)).map (·.2)).getD id = f
  rw [zip_find h hn he hf]
  rfl

theorem Flow.congr {edges : List (ℕ × ℕ)} {op op' : ℕ × ℕ → α → α} {merge : List α → α} {x : α}
    {val : ℕ → α} (h : Flow edges op merge x val) (heq : ∀ e ∈ edges, op' e = op e) :
    Flow edges op' merge x val := by
  refine ⟨h.1, ?_, ?_⟩
  · intro u v hv
    have : (u, v) ∈ edges := (List.mem_filter.1 (by rw [hv]; simp : (u, v) ∈ edges.filter (·.2 = v))).1
    rw [heq _ this]
    exact h.2.1 u v hv
  · intro v hv
    rw [h.2.2 v hv]
    congr 1
    apply List.map_congr_left
    intro e he
    rw [heq e (List.mem_filter.1 he).1]

end Verif.Arch
