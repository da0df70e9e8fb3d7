import Verif.Arch.FlattenLemmas
import Verif.Arch.TopoLemmas

/-! # The function of a composed function exists and is unique -/

namespace Verif.Arch

variable {α : Type}

/-- The values of the nodes, for nodes reached in `k` steps or less. -/
def levelVal (merge : List α → α) (es : List (ℕ × ℕ × (α → α))) (x : α) : ℕ → ℕ → α
  | 0, _ => x
  | k + 1, v =>
    if (es.all fun e => e.2.1 ≠ v) then x
    else mergeInputs merge ((es.filter (·.2.1 = v)).map fun e => e.2.2 (levelVal merge es x k e.1))

theorem levelVal_stable (merge : List α → α) {es : List (ℕ × ℕ × (α → α))} (x : α) {ρ : ℕ → ℕ}
    (hρ : ∀ e ∈ es, ρ e.1 < ρ e.2.1) : ∀ (k v : ℕ), ρ v < k →
    levelVal merge es x (k + 1) v = levelVal merge es x k v
  | 0, _, h => by omega
  | k + 1, v, h => by
    rw [levelVal, levelVal]
    split
    · rfl
    · congr 1
      apply List.map_congr_left
      intro e he
      obtain ⟨h1, h2⟩ := List.mem_filter.1 he
      simp only [decide_eq_true_eq] at h2
      have := hρ e h1
      rw [levelVal_stable merge x hρ k e.1 (by rw [h2] at this; omega)]

theorem levelVal_all (merge : List α → α) {es : List (ℕ × ℕ × (α → α))} (x : α) {ρ : ℕ → ℕ}
    (hρ : ∀ e ∈ es, ρ e.1 < ρ e.2.1) (v k : ℕ) (h : ρ v < k) :
    levelVal merge es x k v = levelVal merge es x (ρ v + 1) v := by
  induction k, h using Nat.le_induction with
  | base => rfl
  | succ k hk ih => rw [levelVal_stable merge x hρ k v hk, ih]

theorem level_rank {es : List (ℕ × ℕ × (α → α))} {s t : ℕ}
    (h : Level (es.map fun e => (e.1, e.2.1)) s t) : ∃ ρ : ℕ → ℕ, ∀ e ∈ es, ρ e.1 < ρ e.2.1 := by
  obtain ⟨ρ, hρ⟩ := h.rank
  exact ⟨ρ, fun e he => hρ (e.1, e.2.1) (mem_edge_pairs.2 ⟨e, he, rfl, rfl⟩)⟩

theorem level_inputs {es : List (ℕ × ℕ × (α → α))} {s t : ℕ}
    (h : Level (es.map fun e => (e.1, e.2.1)) s t) (e : ℕ × ℕ × (α → α)) (he : e ∈ es) :
    (e.1 = s ∧ ∀ e' ∈ es, e'.2.1 ≠ e.1) ∨ ∃ e' ∈ es, e'.2.1 = e.1 := by
  by_cases hs : e.1 = s
  · refine Or.inl ⟨hs, fun e' he' heq => h.source.2 e'.1 ?_⟩
    rw [mem_edge_pairs]
    exact ⟨e', he', rfl, heq.trans hs⟩
  · rcases h.sourceOnly (e.1, e.2.1) (mem_edge_pairs.2 ⟨e, he, rfl, rfl⟩) with h1 | ⟨w, hw⟩
    · exact absurd h1 hs
    · obtain ⟨e', he', -, h2⟩ := mem_edge_pairs.1 hw
      exact Or.inr ⟨e', he', h2⟩

theorem computes_exists (merge : List α → α) {es : List (ℕ × ℕ × (α → α))} {s t : ℕ}
    (h : Level (es.map fun e => (e.1, e.2.1)) s t) : ∃ F, Computes merge es F := by
  obtain ⟨ρ, hρ⟩ := level_rank h
  refine ⟨fun x => levelVal merge es x (ρ t + 1) t, fun x =>
    ⟨fun v => levelVal merge es x (ρ v + 1) v, ?_, ?_, ?_⟩⟩
  · intro e he hno
    simp only [levelVal]
    rw [if_pos]
    simpa using hno
  · intro e he
    simp only [levelVal]
    rw [if_neg]
    · unfold inputsAt
      congr 1
      apply List.map_congr_left
      intro e' he'
      obtain ⟨h1, h2⟩ := List.mem_filter.1 he'
      simp only [decide_eq_true_eq] at h2
      rw [levelVal_all merge x hρ e'.1 _ (h2 ▸ hρ e' h1)]
      rfl
    · simp only [List.all_eq_true, decide_eq_true_eq]
      exact fun hall => hall e he rfl
  · intro e he hno
    rcases h.sinkOnly (e.1, e.2.1) (mem_edge_pairs.2 ⟨e, he, rfl, rfl⟩) with h1 | ⟨w, hw⟩
    · simp only at h1
      rw [h1]
    · obtain ⟨e', he', h1, -⟩ := mem_edge_pairs.1 hw
      exact absurd h1 (hno e' he')

theorem computes_unique {merge : List α → α} {es : List (ℕ × ℕ × (α → α))} {s t : ℕ}
    (h : Level (es.map fun e => (e.1, e.2.1)) s t) {F F' : α → α} (hF : Computes merge es F)
    (hF' : Computes merge es F') : F = F' := by
  obtain ⟨ρ, hρ⟩ := level_rank h
  funext x
  obtain ⟨val, h1, h2, h3⟩ := hF x
  obtain ⟨val', h1', h2', h3'⟩ := hF' x
  have key : ∀ (r : ℕ) (e : ℕ × ℕ × (α → α)), e ∈ es → ρ e.2.1 ≤ r → val e.2.1 = val' e.2.1 := by
    intro r
    induction r with
    | zero =>
      intro e he hr
      have := hρ e he
      omega
    | succ r ih =>
      intro e he hr
      rw [h2 e he, h2' e he]
      congr 1
      unfold inputsAt
      apply List.map_congr_left
      intro e' he'
      obtain ⟨h4, h5⟩ := List.mem_filter.1 he'
      simp only [decide_eq_true_eq] at h5
      rcases level_inputs h e' h4 with ⟨-, hno⟩ | ⟨e'', he'', heq⟩
      · rw [h1 e' h4 hno, h1' e' h4 hno]
      · rw [← heq, ih e'' he'' (by
          have := hρ e' h4
          rw [heq]
          rw [h5] at this
          omega)]
  obtain ⟨u, hu⟩ := h.sink.1
  obtain ⟨e, he, -, h5⟩ := mem_edge_pairs.1 hu
  have hno : ∀ e' ∈ es, e'.1 ≠ e.2.1 := by
    intro e' he' heq
    apply h.sink.2 e'.2.1
    rw [mem_edge_pairs]
    exact ⟨e', he', heq.trans h5, rfl⟩
  rw [← h3 e he hno, ← h3' e he hno]
  exact key _ e he le_rfl

/-- The topologies inside are as in `Level`. -/
def Net.Levels : Net α → Prop
  | .nil => True
  | .prim _ _ _ rest => Levels rest
  | .sub _ _ _ inner rest => (∃ s t, Level inner.pairs s t) ∧ Levels inner ∧ Levels rest

theorem Net.Ops.pairs_eq {N : Net α} {es : List (ℕ × ℕ × (α → α))} (h : N.Ops es) :
    (es.map fun e => (e.1, e.2.1)) = N.pairs := by
  induction h with
  | nil => rfl
  | prim _ ih => simp [Net.pairs, ih]
  | sub _ _ _ _ ih => simp [Net.pairs, ih]

theorem ops_exists : ∀ (N : Net α), N.Levels → ∃ es, N.Ops es
  | .nil, _ => ⟨_, .nil⟩
  | .prim _ _ _ rest, h => by
    obtain ⟨es, hes⟩ := ops_exists rest h
    exact ⟨_, .prim hes⟩
  | .sub _ _ merge inner rest, h => by
    obtain ⟨⟨s, t, hl⟩, h1, h2⟩ := h
    obtain ⟨is, his⟩ := ops_exists inner h1
    obtain ⟨es, hes⟩ := ops_exists rest h2
    obtain ⟨F, hF⟩ := computes_exists merge (his.pairs_eq ▸ hl)
    exact ⟨_, .sub his hF hes⟩

theorem ops_unique : ∀ {N : Net α}, N.Levels → ∀ {es es' : List (ℕ × ℕ × (α → α))}, N.Ops es →
    N.Ops es' → es = es'
  | .nil, _, _, _, h, h' => by cases h; cases h'; rfl
  | .prim _ _ _ rest, hl, _, _, h, h' => by
    cases h with
    | prim h =>
      cases h' with
      | prim h' => rw [ops_unique (N := rest) hl h h']
  | .sub _ _ merge inner rest, hl, _, _, h, h' => by
    obtain ⟨⟨s, t, hlev⟩, h1, h2⟩ := hl
    cases h with
    | sub hi hc hr =>
      cases h' with
      | sub hi' hc' hr' =>
        have := ops_unique h1 hi hi'
        subst this
        rw [computes_unique (hi.pairs_eq ▸ hlev) hc hc', ops_unique h2 hr hr']

theorem Net.Nested.levels [AddCommMonoid α] : ∀ {N : Net α}, N.Nested → N.Levels
  | .nil, _ => trivial
  | .prim _ _ _ rest, h => Net.Nested.levels (N := rest) h
  | .sub _ _ _ _ _, ⟨_, h1, h2, h3⟩ => ⟨h1, h2.levels, h3.levels⟩

theorem level_builtin {n : ℕ} {edges : List (ℕ × ℕ)} (h : Builtin n edges) : Level edges 1 n := by
  obtain ⟨hn, hb⟩ := breadthFirst_builtin h
  have hout : ∀ v, 1 ≤ v → v < n → ∃ w, (v, w) ∈ edges := by
    intro v h1 h2
    cases h with
    | sequential n => exact ⟨v + 1, (mem_sequential _ _).2 ⟨by simp only; omega, by simp only; omega, by simp only⟩⟩
    | residual =>
      have : v = 1 ∨ v = 2 := by omega
      rcases this with rfl | rfl
      · exact ⟨2, by decide⟩
      · exact ⟨3, by decide⟩
    | diamond =>
      have : v = 1 ∨ v = 2 ∨ v = 3 := by omega
      rcases this with rfl | rfl | rfl
      · exact ⟨2, by decide⟩
      · exact ⟨4, by decide⟩
      · exact ⟨4, by decide⟩
    | diamondMid =>
      have : v = 1 ∨ v = 2 ∨ v = 3 := by omega
      rcases this with rfl | rfl | rfl
      · exact ⟨2, by decide⟩
      · exact ⟨4, by decide⟩
      · exact ⟨4, by decide⟩
    | dense n => exact ⟨v + 1, (mem_dense _ _).2 ⟨by simp only; omega, by simp only; omega, by simp only; omega⟩⟩
  refine ⟨nodup_builtin h, ⟨id, fun e he => (hb.up e he).2.1⟩, ⟨hout 1 le_rfl (by omega), ?_⟩, ?_,
    ⟨hb.met n hn le_rfl, ?_⟩, ?_⟩
  · intro u hu
    have := hb.up _ hu
    simp only at this
    omega
  · intro e he
    have h1 := hb.up e he
    by_cases h2 : e.1 = 1
    · exact Or.inl h2
    · exact Or.inr (hb.met e.1 (by omega) (by omega))
  · intro v hv
    have := hb.up _ hv
    simp only at this
    omega
  · intro e he
    have h1 := hb.up e he
    by_cases h2 : e.2 = n
    · exact Or.inl h2
    · exact Or.inr (hout e.2 (by omega) (by omega))

end Verif.Arch
