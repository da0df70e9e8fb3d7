import Verif.Arch.CodeModel
import Verif.Arch.FlattenLemmas
import Verif.Arch.Spec

/-! # Lemmas on the generated module -/

namespace Verif.Arch

variable {α : Type}

theorem foldl_max_le (l : List ℕ) : ∀ a b, a ≤ b → (∀ x ∈ l, x ≤ b) → l.foldl max a ≤ b := by
  induction l with
  | nil => intro a b h _; exact h
  | cons c l ih =>
    intro a b h hl
    exact ih _ _ (max_le h (hl c List.mem_cons_self)) fun x hx => hl x (List.mem_cons_of_mem _ hx)

theorem top_append (l : List ℕ) (n : ℕ) : (l ++ [n]).foldl max 0 = max (l.foldl max 0) n := by
  simp [List.foldl_append]

theorem dictSet_new {k v : ℕ} : ∀ {d : List (ℕ × ℕ)}, (∀ p ∈ d, p.1 ≠ k) →
    dictSet k v d = d ++ [(k, v)]
  | [], _ => rfl
  | p :: d, h => by
    rw [dictSet, if_neg (h p List.mem_cons_self), dictSet_new fun q hq => h q (List.mem_cons_of_mem _ hq)]
    rfl

theorem values_mono {env env' : Env α} (h : ∀ i v, env i = some v → env' i = some v) :
    ∀ {l : List ℕ} {as : List α}, env.values l = some as → env'.values l = some as
  | [], _, hv => hv
  | i :: l, as, hv => by
    simp only [Env.values] at hv ⊢
    cases h1 : env i with
    | none => rw [h1] at hv; simp at hv
    | some a =>
      cases h2 : env.values l with
      | none => rw [h1, h2] at hv; simp at hv
      | some bs =>
        rw [h1, h2] at hv
        rw [h i a h1, values_mono h h2]
        exact hv

theorem values_append (env : Env α) {l : List ℕ} {i : ℕ} {as : List α} {a : α}
    (h : env.values l = some as) (hi : env i = some a) : env.values (l ++ [i]) = some (as ++ [a]) := by
  induction l generalizing as with
  | nil =>
    simp only [Env.values, Option.some.injEq] at h
    subst h
    simp [Env.values, hi]
  | cons j l ih =>
    simp only [Env.values] at h
    cases h1 : env j with
    | none => rw [h1] at h; simp at h
    | some b =>
      cases h2 : env.values l with
      | none => rw [h1, h2] at h; simp at h
      | some bs =>
        rw [h1, h2] at h
        simp only [Option.some.injEq] at h
        subst h
        simp [Env.values, h1, ih h2]

variable [AddCommMonoid α]

theorem runLines_append (M : List (α → α)) : ∀ (l l' : List Line) (env env' : Env α),
    runLines M l env = some env' → runLines M (l ++ l') env = runLines M l' env'
  | [], _, env, env', h => by
    simp only [runLines, Option.some.injEq] at h
    subst h
    rfl
  | a :: l, l', env, env', h => by
    simp only [runLines, List.cons_append] at h ⊢
    cases h1 : a.run M env with
    | none => rw [h1] at h; simp at h
    | some e =>
      rw [h1] at h
      exact runLines_append M l l' e env' h

/-- The names before the first line. -/
def env0 (x : α) : Env α := fun i => if i = 0 then some x else none

/-- What holds after the nodes `done`, when the edges `D` have been dealt with. -/
structure GInv (s : ℕ) (x : α) (val : ℕ → α) (done : List ℕ) (D : List (ℕ × ℕ × (α → α))) (g : Gen α)
    (env : Env α) : Prop where
  run : ∀ M, g.modules <+: M → runLines M g.lines (env0 x) = some env
  bound : ∀ i v, env i = some v → i ≤ g.top
  src : s ∉ done → g.input s = [(0, 0)] ∧ env 0 = some x
  keys : ∀ w, w ∉ done → w ≠ s → ∀ p ∈ g.input w, ∃ e ∈ D, e.1 = p.1 ∧ e.2.1 = w
  sums : ∀ w, w ∉ done → w ≠ s →
    ∃ as, env.values ((g.input w).map (·.2)) = some as ∧ as.sum = inSum D val w
  filled : ∀ w, w ∉ done → w ≠ s → (∃ e ∈ D, e.2.1 = w) → g.input w ≠ []

variable {s c : ℕ} {x : α} {val : ℕ → α} {done : List ℕ} {D : List (ℕ × ℕ × (α → α))} {g : Gen α}
  {env : Env α}

theorem enter_ok (h : GInv s x val done D g env) (hc : c ∉ done) (hs : val s = x)
    (hin : c ≠ s → (∃ e ∈ D, e.2.1 = c) ∧ val c = inSum D val c) :
    ∃ g' env', g.enter c = some g' ∧ GInv s x val (done ++ [c]) D g' env' ∧
      env' g'.x = some (val c) := by
  have hrest : ∀ w, w ∉ done ++ [c] → w ∉ done ∧ w ≠ c := by
    intro w hw
    simpa using hw
  by_cases hcs : c = s
  · subst hcs
    obtain ⟨h1, h2⟩ := h.src hc
    simp only [Gen.enter, h1, Option.some.injEq]
    refine ⟨_, env, rfl, ?_, by simpa [hs] using h2⟩
    constructor
    · exact h.run
    · intro i v hi
      have := h.bound i v hi
      unfold Gen.top at this ⊢
      simp only
      split
      · exact this
      · rw [top_append]
        exact le_max_of_le_left this
    · intro hn
      exact absurd rfl (hrest c hn).2
    · intro w hw hws p hp
      simp only [if_neg hws] at hp
      exact h.keys w (hrest w hw).1 hws p hp
    · intro w hw hws
      simp only [if_neg hws]
      exact h.sums w (hrest w hw).1 hws
    · intro w hw hws hex
      simp only [if_neg hws]
      exact h.filled w (hrest w hw).1 hws hex
  · obtain ⟨hex, hval⟩ := hin hcs
    have hne := h.filled c hc hcs hex
    obtain ⟨as, h1, h2⟩ := h.sums c hc hcs
    match hd : g.input c with
    | [] => exact absurd hd hne
    | [p] =>
      rw [hd] at h1
      have hp : env p.2 = some (val c) := by
        simp only [List.map_cons, List.map_nil, Env.values] at h1
        cases hv : env p.2 with
        | none => rw [hv] at h1; simp at h1
        | some a =>
          rw [hv] at h1
          simp only [Option.some.injEq] at h1
          subst h1
          rw [hval, ← h2]
          simp
      simp only [Gen.enter, hd, Option.some.injEq]
      refine ⟨_, env, rfl, ?_, hp⟩
      constructor
      · exact h.run
      · intro i v hi
        have := h.bound i v hi
        unfold Gen.top at this ⊢
        simp only
        split
        · exact this
        · rw [top_append]
          exact le_max_of_le_left this
      · intro hn
        obtain ⟨h3, h4⟩ := hrest s hn
        simp only [if_neg h4]
        exact h.src h3
      · intro w hw hws p hp
        simp only [if_neg (hrest w hw).2] at hp
        exact h.keys w (hrest w hw).1 hws p hp
      · intro w hw hws
        simp only [if_neg (hrest w hw).2]
        exact h.sums w (hrest w hw).1 hws
      · intro w hw hws hex
        simp only [if_neg (hrest w hw).2]
        exact h.filled w (hrest w hw).1 hws hex
    | p :: q :: d =>
      have hmono : ∀ i v, env i = some v →
          (fun i => if i = g.top + 1 then some as.sum else env i) i = some v := by
        intro i v hi
        have := h.bound i v hi
        simp only
        rw [if_neg (by omega)]
        exact hi
      simp only [Gen.enter, hd, Option.some.injEq]
      refine ⟨_, fun i => if i = g.top + 1 then some as.sum else env i, rfl, ?_, by simp [hval, h2]⟩
      constructor
      · intro M hM
        rw [runLines_append M _ _ _ _ (h.run M hM)]
        rw [hd] at h1
        simp only [runLines, Line.run, h1]
      · intro i v hi
        have htop : g.top + 1 ∉ g.used := by
          intro hm
          have := foldl_max_ge g.used 0 _ (Or.inl hm)
          unfold Gen.top at this
          omega
        have hle : i ≤ max g.top (g.top + 1) := by
          split at hi
          · rename_i he
            rw [he]
            exact le_max_right _ _
          · exact le_max_of_le_left (h.bound i v hi)
        unfold Gen.top at htop hle ⊢
        simp only [if_neg htop, top_append]
        exact hle
      · intro hn
        obtain ⟨h3, h4⟩ := hrest s hn
        simp only [if_neg h4]
        obtain ⟨h5, h6⟩ := h.src h3
        exact ⟨h5, hmono _ _ h6⟩
      · intro w hw hws p hp
        simp only [if_neg (hrest w hw).2] at hp
        exact h.keys w (hrest w hw).1 hws p hp
      · intro w hw hws
        simp only [if_neg (hrest w hw).2]
        obtain ⟨bs, h3, h4⟩ := h.sums w (hrest w hw).1 hws
        exact ⟨bs, values_mono hmono h3, h4⟩
      · intro w hw hws hex
        simp only [if_neg (hrest w hw).2]
        exact h.filled w (hrest w hw).1 hws hex

theorem edge_ok (h : GInv s x val done D g env) (hx : env g.x = some (val c)) (e : ℕ × ℕ × (α → α))
    (hec : e.1 = c) (hes : e.2.1 ≠ s) (hnew : ∀ e' ∈ D, ¬ (e'.1 = e.1 ∧ e'.2.1 = e.2.1)) :
    ∃ env', GInv s x val done (D ++ [e]) (g.edge e) env' ∧ env' (g.edge e).x = some (val c) := by
  set env' : Env α := fun i => if i = g.top + 1 then some (e.2.2 (val c)) else env i with henv
  have hmono : ∀ i v, env i = some v → env' i = some v := by
    intro i v hi
    have := h.bound i v hi
    simp only [henv]
    rw [if_neg (by omega)]
    exact hi
  refine ⟨env', ?_, hmono _ _ hx⟩
  constructor
  · intro M hM
    have hM' : g.modules <+: M := (List.prefix_append _ _).trans hM
    have hk : M[g.modules.length]? = some e.2.2 := by
      obtain ⟨r, rfl⟩ := hM
      simp [Gen.edge]
    simp only [Gen.edge]
    rw [runLines_append M _ _ _ _ (h.run M hM')]
    simp only [runLines, Line.run, hk, hx]
    rfl
  · intro i v hi
    unfold Gen.top Gen.edge
    simp only [top_append]
    simp only [henv] at hi
    split at hi
    · rename_i he
      rw [he]
      exact le_max_right _ _
    · exact le_max_of_le_left (h.bound i v hi)
  · intro hn
    obtain ⟨h5, h6⟩ := h.src hn
    refine ⟨?_, hmono _ _ h6⟩
    simp only [Gen.edge, if_neg (Ne.symm hes)]
    exact h5
  · intro w hw hws p hp
    by_cases hwe : w = e.2.1
    · subst hwe
      simp only [Gen.edge, if_true] at hp
      rw [dictSet_new (fun q hq hk => by
        obtain ⟨e', h1, h2, h3⟩ := h.keys _ hw hws q hq
        exact hnew e' h1 ⟨h2.trans hk, h3⟩)] at hp
      rcases List.mem_append.1 hp with hp | hp
      · obtain ⟨e', h1, h2⟩ := h.keys _ hw hws p hp
        exact ⟨e', List.mem_append_left _ h1, h2⟩
      · rw [List.mem_singleton] at hp
        subst hp
        exact ⟨e, List.mem_append_right _ (List.mem_singleton.2 rfl), rfl, rfl⟩
    · simp only [Gen.edge, if_neg hwe] at hp
      obtain ⟨e', h1, h2⟩ := h.keys _ hw hws p hp
      exact ⟨e', List.mem_append_left _ h1, h2⟩
  · intro w hw hws
    obtain ⟨as, h1, h2⟩ := h.sums w hw hws
    by_cases hwe : w = e.2.1
    · subst hwe
      refine ⟨as ++ [e.2.2 (val c)], ?_, ?_⟩
      · simp only [Gen.edge, if_true]
        rw [dictSet_new (fun q hq hk => by
          obtain ⟨e', h1, h2, h3⟩ := h.keys _ hw hws q hq
          exact hnew e' h1 ⟨h2.trans hk, h3⟩)]
        rw [List.map_append]
        exact values_append _ (values_mono hmono h1) (by simp [henv])
      · rw [List.sum_append, h2, inSum_append]
        simp [inSum_cons, inSum_nil, hec]
    · refine ⟨as, ?_, ?_⟩
      · simp only [Gen.edge, if_neg hwe]
        exact values_mono hmono h1
      · rw [h2, inSum_append]
        simp [inSum_cons, inSum_nil, Ne.symm hwe]
  · intro w hw hws hex
    by_cases hwe : w = e.2.1
    · subst hwe
      simp only [Gen.edge, if_true]
      intro h0
      cases hd : g.input e.2.1 with
      | nil => rw [hd] at h0; simp [dictSet] at h0
      | cons q d =>
        rw [hd] at h0
        simp only [dictSet] at h0
        split at h0 <;> cases h0
    · simp only [Gen.edge, if_neg hwe]
      apply h.filled w hw hws
      obtain ⟨e', h1, h2⟩ := hex
      rcases List.mem_append.1 h1 with h1 | h1
      · exact ⟨e', h1, h2⟩
      · rw [List.mem_singleton] at h1
        subst h1
        exact absurd h2.symm hwe

theorem edges_ok : ∀ (es : List (ℕ × ℕ × (α → α))) (D : List (ℕ × ℕ × (α → α))) (g : Gen α)
    (env : Env α), GInv s x val done D g env → env g.x = some (val c) → (∀ e ∈ es, e.1 = c) →
    (∀ e ∈ es, e.2.1 ≠ s) → ((D ++ es).map fun e => (e.1, e.2.1)).Nodup →
    ∃ env', GInv s x val done (D ++ es) (es.foldl Gen.edge g) env' ∧
      env' (es.foldl Gen.edge g).x = some (val c)
  | [], D, g, env, h, hx, _, _, _ => ⟨env, by simpa using h, hx⟩
  | e :: es, D, g, env, h, hx, hc, hs, hnd => by
    obtain ⟨env', h1, h2⟩ := edge_ok h hx e (hc e List.mem_cons_self) (hs e List.mem_cons_self) (by
      intro e' he' heq
      rw [List.map_append, List.nodup_append] at hnd
      exact hnd.2.2 _ (List.mem_map_of_mem he') (e.1, e.2.1) (by simp) (by simp [heq.1, heq.2]))
    obtain ⟨env'', h3, h4⟩ := edges_ok es (D ++ [e]) (g.edge e) env' h1 h2
      (fun e' he' => hc e' (List.mem_cons_of_mem _ he'))
      (fun e' he' => hs e' (List.mem_cons_of_mem _ he')) (by simpa using hnd)
    exact ⟨env'', by simpa using h3, h4⟩

/-! ## All nodes -/

/-- The edges that have been dealt with after the nodes `done`. -/
def doneEdges (E : List (ℕ × ℕ × (α → α))) (done : List ℕ) : List (ℕ × ℕ × (α → α)) :=
  done.flatMap fun c => E.filter (·.1 = c)

omit [AddCommMonoid α] in
theorem mem_doneEdges {E : List (ℕ × ℕ × (α → α))} {done : List ℕ} {e : ℕ × ℕ × (α → α)} :
    e ∈ doneEdges E done ↔ e ∈ E ∧ e.1 ∈ done := by
  unfold doneEdges
  simp only [List.mem_flatMap, List.mem_filter, decide_eq_true_eq]
  constructor
  · rintro ⟨c, hc, h1, h2⟩
    exact ⟨h1, h2 ▸ hc⟩
  · rintro ⟨h1, h2⟩
    exact ⟨e.1, h2, h1, rfl⟩

omit [AddCommMonoid α] in
theorem doneEdges_nodup {E : List (ℕ × ℕ × (α → α))} (hE : (E.map fun e => (e.1, e.2.1)).Nodup) :
    ∀ {done : List ℕ}, done.Nodup → ((doneEdges E done).map fun e => (e.1, e.2.1)).Nodup
  | [], _ => by simp [doneEdges]
  | c :: done, h => by
    obtain ⟨h1, h2⟩ := List.nodup_cons.1 h
    have : doneEdges E (c :: done) = E.filter (·.1 = c) ++ doneEdges E done := rfl
    rw [this, List.map_append, List.nodup_append]
    refine ⟨hE.sublist (List.filter_sublist.map _), doneEdges_nodup hE h2, ?_⟩
    intro p hp q hq hpq
    obtain ⟨e, he, rfl⟩ := List.mem_map.1 hp
    obtain ⟨e', he', rfl⟩ := List.mem_map.1 hq
    simp only [Prod.mk.injEq] at hpq
    have h3 : e.1 = c := by simpa using (List.mem_filter.1 he).2
    have h4 := (mem_doneEdges.1 he').2
    rw [← hpq.1, h3] at h4
    exact h1 h4

theorem inSum_filter_cons (E : List (ℕ × ℕ × (α → α))) (c : ℕ) (done : List ℕ) (hc : c ∉ done)
    (val : ℕ → α) (w : ℕ) : inSum (E.filter (·.1 ∈ c :: done)) val w =
      inSum (E.filter (·.1 = c)) val w + inSum (E.filter (·.1 ∈ done)) val w := by
  induction E with
  | nil => simp [inSum_nil]
  | cons e E ih =>
    by_cases h1 : e.1 = c
    · have h2 : e.1 ∉ done := h1 ▸ hc
      rw [List.filter_cons_of_pos (by simp [h1]), List.filter_cons_of_pos (by simpa using h1),
        List.filter_cons_of_neg (by simpa using h2), inSum_cons, inSum_cons, ih, add_assoc]
    · by_cases h2 : e.1 ∈ done
      · rw [List.filter_cons_of_pos (by simp [h2]), List.filter_cons_of_neg (by simpa using h1),
          List.filter_cons_of_pos (by simpa using h2), inSum_cons, inSum_cons, ih, add_left_comm]
      · rw [List.filter_cons_of_neg (by simp [h1, h2]), List.filter_cons_of_neg (by simpa using h1),
          List.filter_cons_of_neg (by simpa using h2), ih]

theorem inSum_done (E : List (ℕ × ℕ × (α → α))) (val : ℕ → α) (w : ℕ) :
    ∀ {done : List ℕ}, done.Nodup →
      inSum (doneEdges E done) val w = inSum (E.filter (·.1 ∈ done)) val w
  | [], _ => by simp [doneEdges, inSum_nil]
  | c :: done, h => by
    obtain ⟨h1, h2⟩ := List.nodup_cons.1 h
    rw [inSum_filter_cons E c done h1, ← inSum_done E val w h2, ← inSum_append]
    rfl

theorem inSum_filter_all {E : List (ℕ × ℕ × (α → α))} {w : ℕ} {done : List ℕ}
    (h : ∀ e ∈ E, e.2.1 = w → e.1 ∈ done) (val : ℕ → α) :
    inSum (E.filter (·.1 ∈ done)) val w = inSum E val w := by
  induction E with
  | nil => rfl
  | cons e E ih =>
    have ih := ih fun e' he' => h e' (List.mem_cons_of_mem _ he')
    by_cases h1 : e.1 ∈ done
    · rw [List.filter_cons_of_pos (by simpa using h1), inSum_cons, inSum_cons, ih]
    · rw [List.filter_cons_of_neg (by simpa using h1), inSum_cons, ih,
        if_neg fun h2 => h1 (h e List.mem_cons_self h2), zero_add]

theorem loop_ok {G : Flat α} {s t last : ℕ} {x : α} {val : ℕ → α} {order : List ℕ}
    (hlev : Level (G.edges.map fun e => (e.1, e.2.1)) s t)
    (hnodes : ∀ w ∈ G.nodes, ∃ e ∈ G.edges, w = e.1 ∨ w = e.2.1)
    (hnd : order.Nodup) (hmem : ∀ n ∈ order, n ∈ G.nodes)
    (hfwd : ∀ l₁ c l₂, order = l₁ ++ c :: l₂ → ∀ e ∈ G.edges, e.2.1 = c → e.1 ∈ l₁)
    (hs : val s = x) (hv : ∀ e ∈ G.edges, val e.2.1 = inSum G.edges val e.2.1)
    (hlast : ∀ n ∈ order, (∀ e ∈ G.edges, e.1 ≠ n) → n = last) :
    ∀ (ns done : List ℕ) (g : Gen α) (env : Env α), order = done ++ ns →
      GInv s x val done (doneEdges G.edges done) g env →
      ∃ g' env', Gen.loop G last ns g = some g' ∧
        GInv s x val order (doneEdges G.edges order) g' env' ∧
        ∀ c, ns.getLast? = some c → env' g'.x = some (val c)
  | [], done, g, env, ho, h => by
    rw [List.append_nil] at ho
    subst ho
    exact ⟨g, env, rfl, h, by simp⟩
  | c :: ns, done, g, env, ho, h => by
    have hc : c ∉ done := by
      rw [ho, List.nodup_append] at hnd
      intro hm
      exact hnd.2.2 c hm c List.mem_cons_self rfl
    have hdnd : done.Nodup := by
      rw [ho, List.nodup_append] at hnd
      exact hnd.1
    have hcm : c ∈ order := by rw [ho]; simp
    obtain ⟨g1, env1, h1, h2, h3⟩ := enter_ok h hc hs (by
      intro hcs
      have hex : ∃ e ∈ G.edges, e.2.1 = c := by
        obtain ⟨e, he, hor⟩ := hnodes c (hmem c hcm)
        rcases hor with rfl | rfl
        · rcases hlev.sourceOnly (e.1, e.2.1) (List.mem_map_of_mem (f := fun e : ℕ × ℕ × (α → α) => (e.1, e.2.1)) he) with h | ⟨w, hw⟩
          · exact absurd h hcs
          · obtain ⟨e', he', h1, h2⟩ := mem_edge_pairs.1 hw
            exact ⟨e', he', h2⟩
        · exact ⟨e, he, rfl⟩
      obtain ⟨e, he, hec⟩ := hex
      have hpre := hfwd done c ns ho
      refine ⟨⟨e, mem_doneEdges.2 ⟨he, hpre e he hec⟩, hec⟩, ?_⟩
      rw [inSum_done _ _ _ hdnd, inSum_filter_all hpre]
      have := hv e he
      rwa [hec] at this)
    have hDc : doneEdges G.edges (done ++ [c]) = doneEdges G.edges done ++ G.edges.filter (·.1 = c) := by
      simp [doneEdges]
    have hnd' : (done ++ [c]).Nodup := by
      rw [List.nodup_append]
      exact ⟨hdnd, by simp, by
        intro a ha b hb hab
        rw [List.mem_singleton] at hb
        subst hb
        subst hab
        exact hc ha⟩
    obtain ⟨env2, h4, h5⟩ := edges_ok (c := c) (G.edges.filter (·.1 = c)) _ g1 env1 h2 h3
      (fun e he => by simpa using (List.mem_filter.1 he).2)
      (fun e he hes => by
        apply hlev.source.2 e.1
        rw [mem_edge_pairs]
        exact ⟨e, (List.mem_filter.1 he).1, rfl, hes⟩)
      (by rw [← hDc]; exact doneEdges_nodup hlev.nodup hnd')
    have hnode : g.node G last c = some ((G.edges.filter (·.1 = c)).foldl Gen.edge g1) := by
      unfold Gen.node
      rw [h1]
      simp only
      rw [if_neg]
      rintro ⟨h6, h7⟩
      have := hlast c hcm (by
        intro e he hec
        rw [List.length_eq_zero_iff, List.filter_eq_nil_iff] at h6
        exact h6 e he (by simpa using hec))
      omega
    rw [← hDc] at h4
    obtain ⟨g', env', h6, h7, h8⟩ := loop_ok hlev hnodes hnd hmem hfwd hs hv hlast ns (done ++ [c]) _ env2
      (by simpa using ho) h4
    refine ⟨g', env', ?_, h7, ?_⟩
    · simp only [Gen.loop, hnode]
      exact h6
    · intro d hd
      cases ns with
      | nil =>
        simp only [List.getLast?_singleton, Option.some.injEq] at hd
        subst hd
        simp only [Gen.loop, Option.some.injEq] at h6
        subst h6
        -- the loop is over: the invariant is that after the edges of this node
        have hfin := h7.run _ (List.prefix_refl _)
        have hmid := h4.run _ (List.prefix_refl _)
        rw [hmid] at hfin
        cases hfin
        exact h5
      | cons n ns =>
        apply h8
        simpa using hd

omit [AddCommMonoid α] in
theorem source_unique {G : Flat α} {s t : ℕ} (hlev : Level (G.edges.map fun e => (e.1, e.2.1)) s t)
    (hnodes : ∀ w ∈ G.nodes, ∃ e ∈ G.edges, w = e.1 ∨ w = e.2.1) {w : ℕ} (hw : w ∈ G.nodes)
    (h : noInput (G.edges.map fun e => (e.1, e.2.1)) w = true) : w = s := by
  have h' : ∀ e ∈ G.edges, e.2.1 ≠ w := by
    simpa [noInput] using h
  obtain ⟨e, he, rfl | rfl⟩ := hnodes w hw
  · rcases hlev.sourceOnly (e.1, e.2.1) (mem_edge_pairs.2 ⟨e, he, rfl, rfl⟩) with h1 | ⟨u, hu⟩
    · exact h1
    · obtain ⟨e', he', -, h2⟩ := mem_edge_pairs.1 hu
      exact absurd h2 (h' e' he')
  · exact absurd rfl (h' e he)

theorem generate_ok {G : Flat α} {s t : ℕ} (hlev : Level (G.edges.map fun e => (e.1, e.2.1)) s t)
    (hends : ∀ e ∈ G.edges, e.1 ∈ G.nodes ∧ e.2.1 ∈ G.nodes)
    (hnodes : ∀ w ∈ G.nodes, ∃ e ∈ G.edges, w = e.1 ∨ w = e.2.1) {order : List ℕ}
    (ho : Topological ⟨G.nodes, G.edges.map fun e => (e.1, e.2.1)⟩ order) {F : α → α}
    (hF : Computes List.sum G.edges F) (x : α) :
    ∃ g, generate G order = some g ∧ forward g x = some (F x) := by
  obtain ⟨val, hv1, hv2, hv3⟩ := hF x
  have hedge : ∀ {u v : ℕ}, (u, v) ∈ (G.edges.map fun e => (e.1, e.2.1)) →
      ∃ e ∈ G.edges, e.1 = u ∧ e.2.1 = v := fun h => mem_edge_pairs.1 h
  obtain ⟨v₀, hv₀⟩ := hlev.source.1
  obtain ⟨es, hes, hes1, hes2⟩ := hedge hv₀
  obtain ⟨u₀, hu₀⟩ := hlev.sink.1
  obtain ⟨et, het, het1, het2⟩ := hedge hu₀
  have hsn : s ∈ G.nodes := hes1 ▸ (hends es hes).1
  have htn : t ∈ G.nodes := het2 ▸ (hends et het).2
  have hfwd : ∀ l₁ c l₂, order = l₁ ++ c :: l₂ → ∀ e ∈ G.edges, e.2.1 = c → e.1 ∈ l₁ := by
    intro l₁ c l₂ hl e he hec
    have h1 := ho.forward e.1 e.2.1 (mem_edge_pairs.2 ⟨e, he, rfl, rfl⟩)
    have hc : c ∉ l₁ := by
      have := ho.nodup
      rw [hl, List.nodup_append] at this
      intro hm
      exact this.2.2 c hm c List.mem_cons_self rfl
    by_contra hn
    rw [hec, hl, List.idxOf_append_of_notMem hn, List.idxOf_append_of_notMem hc,
      List.idxOf_cons_self] at h1
    omega
  have hsink : ∀ n ∈ order, (∀ e ∈ G.edges, e.1 ≠ n) → n = t := by
    intro n hn hno
    obtain ⟨e, he, rfl | rfl⟩ := hnodes n ((ho.mem n).1 hn)
    · exact absurd rfl (hno e he)
    · rcases hlev.sinkOnly (e.1, e.2.1) (mem_edge_pairs.2 ⟨e, he, rfl, rfl⟩) with h1 | ⟨w, hw⟩
      · exact h1
      · obtain ⟨e', he', h2, -⟩ := hedge hw
        exact absurd h2 (hno e' he')
  have hne : order ≠ [] := by
    intro h
    have := (ho.mem t).2 htn
    rw [h] at this
    cases this
  have hlast : order.getLast hne = t := by
    apply hsink _ (List.getLast_mem hne)
    intro e he hel
    have h1 := hfwd
    have hsplit : order = order.dropLast ++ [order.getLast hne] := (List.dropLast_append_getLast hne).symm
    have hv : e.2.1 ∈ order := (ho.mem _).2 (hends e he).2
    have hnl : order.getLast hne ∉ order.dropLast := by
      have := ho.nodup
      rw [hsplit, List.nodup_append] at this
      intro hm
      exact this.2.2 _ hm _ (List.mem_singleton.2 rfl) rfl
    have hself : e.2.1 ≠ e.1 := by
      intro h
      obtain ⟨ρ, hρ⟩ := hlev.rank
      have := hρ (e.1, e.2.1) (mem_edge_pairs.2 ⟨e, he, rfl, rfl⟩)
      simp only [h] at this
      omega
    rw [hsplit] at hv
    rcases List.mem_append.1 hv with hv | hv
    · obtain ⟨l₁, l₂, hl⟩ := List.append_of_mem hv
      have := h1 l₁ e.2.1 (l₂ ++ [order.getLast hne]) (hsplit.trans (by rw [hl]; simp)) e he rfl
      rw [hel] at this
      exact hnl (by rw [hl]; exact List.mem_append_left _ this)
    · rw [List.mem_singleton] at hv
      exact hself (hv.trans hel.symm)
  have hgl : order.getLast?.getD 0 = t := by
    rw [List.getLast?_eq_getLast_of_ne_nil hne, Option.getD_some, hlast]
  have hsrc : G.nodes.find? (fun n => noInput (G.edges.map fun e => (e.1, e.2.1)) n) = some s := by
    cases hf : G.nodes.find? (fun n => noInput (G.edges.map fun e => (e.1, e.2.1)) n) with
    | none =>
      rw [List.find?_eq_none] at hf
      exfalso
      apply hf s hsn
      simp only [noInput, List.all_eq_true, decide_eq_true_eq]
      intro p hp hps
      apply hlev.source.2 p.1
      rw [← hps]
      exact hp
    | some w =>
      rw [source_unique hlev hnodes (List.mem_of_find?_eq_some hf) (List.find?_some hf)]
  have hvs : val s = x := by
    rw [← hes1]
    apply hv1 es hes
    intro e' he' h
    apply hlev.source.2 e'.1
    rw [mem_edge_pairs]
    exact ⟨e', he', rfl, h.trans hes1⟩
  have hvt : val t = F x := by
    rw [← het2]
    apply hv3 et het
    intro e' he' h
    apply hlev.sink.2 e'.2.1
    rw [mem_edge_pairs]
    exact ⟨e', he', h.trans het2, rfl⟩
  obtain ⟨g, env, h1, h2, h3⟩ := loop_ok (last := t) hlev hnodes ho.nodup (fun n hn => (ho.mem n).1 hn) hfwd hvs
    (fun e he => (hv2 e he).trans (mergeInputs_sum _)) hsink order []
    ⟨fun w => if w = s then [(0, 0)] else [], [], [0], [], 0⟩ (env0 x) rfl (by
      constructor
      · intro M _
        rfl
      · intro i v hi
        simp only [env0] at hi
        split at hi
        · omega
        · cases hi
      · intro _
        exact ⟨if_pos rfl, if_pos rfl⟩
      · intro w _ hws p hp
        simp [hws] at hp
      · intro w _ hws
        exact ⟨[], by simp [hws, Env.values], by simp [doneEdges, inSum_nil]⟩
      · rintro w _ _ ⟨e, he, -⟩
        simp [doneEdges] at he)
  refine ⟨g, ?_, ?_⟩
  · unfold generate
    rw [hsrc]
    simp only
    rw [hgl]
    exact h1
  · unfold forward
    have := h2.run g.modules (List.prefix_refl _)
    unfold env0 at this
    rw [this]
    simp only
    rw [h3 t (by rw [List.getLast?_eq_getLast_of_ne_nil hne, hlast]), hvt]

end Verif.Arch
