import Verif.Arch.FlattenModel
import Mathlib.Tactic.Linarith
import Mathlib.Tactic.Set
import Mathlib.Algebra.Order.Field.Rat
import Mathlib.Tactic.FieldSimp
import Mathlib.Tactic.Positivity
import Mathlib.Algebra.Order.Field.Basic
import Mathlib.Tactic.Ring

/-! # Lemmas on flattening -/

namespace Verif.Arch

variable {α : Type}

/-! ## Sums of inputs -/

/-- The sum of what arrives at a node. -/
def inSum [AddCommMonoid α] (es : List (ℕ × ℕ × (α → α))) (val : ℕ → α) (v : ℕ) : α :=
  (inputsAt es val v).sum

section sums
variable [AddCommMonoid α]

theorem inSum_nil (val : ℕ → α) (v : ℕ) : inSum [] val v = 0 := rfl

theorem inSum_cons (e : ℕ × ℕ × (α → α)) (es : List (ℕ × ℕ × (α → α))) (val : ℕ → α) (v : ℕ) :
    inSum (e :: es) val v = (if e.2.1 = v then e.2.2 (val e.1) else 0) + inSum es val v := by
  unfold inSum inputsAt
  by_cases h : e.2.1 = v
  · simp [h]
  · simp [h]

theorem inSum_append (es es' : List (ℕ × ℕ × (α → α))) (val : ℕ → α) (v : ℕ) :
    inSum (es ++ es') val v = inSum es val v + inSum es' val v := by
  unfold inSum inputsAt
  simp

theorem inSum_congr {es : List (ℕ × ℕ × (α → α))} {val val' : ℕ → α}
    (h : ∀ e ∈ es, val e.1 = val' e.1) (v : ℕ) : inSum es val v = inSum es val' v := by
  induction es with
  | nil => rfl
  | cons e es ih =>
    rw [inSum_cons, inSum_cons, h e List.mem_cons_self,
      ih fun e' he' => h e' (List.mem_cons_of_mem _ he')]

theorem inSum_zero {es : List (ℕ × ℕ × (α → α))} {v : ℕ} (h : ∀ e ∈ es, e.2.1 ≠ v) (val : ℕ → α) :
    inSum es val v = 0 := by
  induction es with
  | nil => rfl
  | cons e es ih =>
    rw [inSum_cons, if_neg (h e List.mem_cons_self),
      ih fun e' he' => h e' (List.mem_cons_of_mem _ he'), zero_add]

theorem mergeInputs_sum (l : List α) : mergeInputs List.sum l = l.sum := by
  match l with
  | [] => rfl
  | [a] => simp [mergeInputs]
  | _ :: _ :: _ => rfl

end sums

/-! ## Placing nodes -/

theorem foldl_max_ge (l : List ℕ) : ∀ a x, (x ∈ l ∨ x ≤ a) → x ≤ l.foldl max a := by
  induction l with
  | nil => intro a x h; simpa using h
  | cons b l ih =>
    intro a x h
    apply ih
    rcases h with h | h
    · rcases List.mem_cons.1 h with rfl | h
      · exact Or.inr (le_max_right _ _)
      · exact Or.inl h
    · exact Or.inr (h.trans (le_max_left _ _))

theorem Flat.fresh_notMem (G : Flat α) : G.fresh ∉ G.nodes := by
  intro h
  unfold Flat.fresh at h
  split at h
  · rename_i h0
    rw [h0] at h
    cases h
  · have := foldl_max_ge G.nodes 0 _ (Or.inl h)
    omega

theorem mem_addNode (G : Flat α) (a w : ℕ) : w ∈ (G.addNode a).nodes ↔ w ∈ G.nodes ∨ w = a := by
  unfold Flat.addNode
  split
  · constructor
    · exact Or.inl
    · rintro (h | rfl)
      · exact h
      · assumption
  · simp

theorem addNode_edges (G : Flat α) (a : ℕ) : (G.addNode a).edges = G.edges := by
  unfold Flat.addNode
  split <;> rfl

/-- Where a node of the graph is, or will be, in the flat graph. -/
def spot (s t : ℕ) (start stop : Option ℕ) (m : List (ℕ × ℕ)) (n : ℕ) : Option ℕ :=
  match m.lookup n with
  | some a => some a
  | none => if n = s then start else if n = t then stop else none

/-- A node has been placed. -/
structure Placed (s t : ℕ) (start stop : Option ℕ) (n : ℕ) (m : List (ℕ × ℕ)) (G : Flat α) (a : ℕ)
    (m' : List (ℕ × ℕ)) (G' : Flat α) : Prop where
  known : m'.lookup n = some a
  kept : ∀ k, (m.lookup k).isSome → m'.lookup k = m.lookup k
  others : ∀ k, k ≠ n → spot s t start stop m' k = spot s t start stop m k
  edges : G'.edges = G.edges
  nodes : ∀ w, w ∈ G'.nodes ↔ w ∈ G.nodes ∨ w = a
  before : spot s t start stop m n = some a ∨ spot s t start stop m n = none ∧ a ∉ G.nodes

theorem Placed.now {s t : ℕ} {start stop : Option ℕ} {n : ℕ} {m : List (ℕ × ℕ)} {G : Flat α} {a : ℕ}
    {m' : List (ℕ × ℕ)} {G' : Flat α} (h : Placed s t start stop n m G a m' G') :
    spot s t start stop m' n = some a := by
  unfold spot
  rw [h.known]

theorem place_known {wanted : Option ℕ} {n : ℕ} {m : List (ℕ × ℕ)} {G : Flat α} {a : ℕ}
    (h : m.lookup n = some a) : place wanted n m G = (a, m, G) := by
  unfold place
  rw [h]

theorem place_ok {s t : ℕ} {start stop wanted : Option ℕ} {n : ℕ} {m : List (ℕ × ℕ)} {G : Flat α}
    (hw : m.lookup n = none → wanted = spot s t start stop m n)
    (him : ∀ k c, spot s t start stop m k = some c → c ∈ G.nodes) :
    Placed s t start stop n m G (place wanted n m G).1 (place wanted n m G).2.1
      (place wanted n m G).2.2 := by
  cases hl : m.lookup n with
  | some a =>
    rw [place_known hl]
    have hs : spot s t start stop m n = some a := by unfold spot; rw [hl]
    exact ⟨hl, fun _ _ => rfl, fun _ _ => rfl, rfl, fun w => ⟨Or.inl, fun h => h.elim id
      (fun e => e ▸ him n a hs)⟩, Or.inl hs⟩
  | none =>
    have hw := hw hl
    have hp : place wanted n m G = (wanted.getD G.fresh, (n, wanted.getD G.fresh) :: m,
        G.addNode (wanted.getD G.fresh)) := by
      unfold place
      rw [hl]
    rw [hp]
    refine ⟨by simp, ?_, ?_, addNode_edges _ _, mem_addNode _ _, ?_⟩
    · intro k hk
      have hne : k ≠ n := by
        rintro rfl
        rw [hl] at hk
        cases hk
      simp [List.lookup_cons, beq_false_of_ne hne]
    · intro k hne
      unfold spot
      simp [List.lookup_cons, beq_false_of_ne hne]
    · rw [hw]
      cases hs : spot s t start stop m n with
      | some a => exact Or.inl rfl
      | none => exact Or.inr ⟨rfl, G.fresh_notMem⟩

/-! ## Inserting one edge -/

variable [AddCommMonoid α]

/-- The graph `G'` is `G` with something between the nodes `a` and `b` that computes `F`. -/
structure Ext (G G' : Flat α) (a b : ℕ) (F : α → α) (new : List (ℕ × ℕ × (α → α))) : Prop where
  edges : G'.edges = G.edges ++ new
  nodes : ∀ w ∈ G.nodes, w ∈ G'.nodes
  ends : ∀ e ∈ new, e.1 ∈ G'.nodes ∧ e.2.1 ∈ G'.nodes
  from_a : ∀ e ∈ new, e.1 ∈ G.nodes → e.1 = a
  to_b : ∀ e ∈ new, e.2.1 ∈ G.nodes → e.2.1 = b
  out : ∃ e ∈ new, e.1 = a
  inn : ∃ e ∈ new, e.2.1 = b
  fresh : ∀ w ∈ G'.nodes, w ∉ G.nodes → (∃ e ∈ new, e.1 = w) ∧ ∃ e ∈ new, e.2.1 = w
  vals : ∀ val : ℕ → α, ∃ val' : ℕ → α, (∀ w ∈ G.nodes, val' w = val w) ∧
    (∀ w ∈ G'.nodes, w ∉ G.nodes → val' w = inSum new val' w) ∧ inSum new val' b = F (val a)
  ranks : ∀ r : ℕ → ℚ, r a < r b → ∃ r' : ℕ → ℚ, (∀ w ∈ G.nodes, r' w = r w) ∧
    ∀ e ∈ new, r' e.1 < r' e.2.1

theorem ext_addEdge {G : Flat α} {a b : ℕ} (f : α → α) (ha : a ∈ G.nodes) (hb : b ∈ G.nodes)
    (hno : ∀ e ∈ G.edges, ¬ (e.1 = a ∧ e.2.1 = b)) :
    Ext G (G.addEdge a b f) a b f [(a, b, f)] := by
  have hany : G.edges.any (fun e => e.1 = a ∧ e.2.1 = b) = false := by
    rw [List.any_eq_false]
    intro e he
    simpa using hno e he
  have hG : G.addEdge a b f = { G with edges := G.edges ++ [(a, b, f)] } := by
    unfold Flat.addEdge
    rw [hany]
    rfl
  rw [hG]
  constructor
  · rfl
  · exact fun _ h => h
  · simp [ha, hb]
  · simp
  · simp
  · simp
  · simp
  · intro w h h'; exact absurd h h'
  · intro val
    refine ⟨val, fun _ _ => rfl, fun w h h' => absurd h h', ?_⟩
    simp [inSum_cons, inSum_nil]
  · intro r hr
    exact ⟨r, fun _ _ => rfl, by simpa using hr⟩

/-! ## The loop -/

/-- A node whose value in the flat graph is that of the graph. -/
def Free (t : ℕ) (stop : Option ℕ) (n : ℕ) : Prop := n ≠ t ∨ stop = none

/-- What the loop over the edges `ps`, with the functions `rs`, has done. -/
structure Looped (s t : ℕ) (start stop : Option ℕ) (ps : List (ℕ × ℕ)) (rs : List (ℕ × ℕ × (α → α)))
    (m : List (ℕ × ℕ)) (G : Flat α) (m' : List (ℕ × ℕ)) (G' : Flat α)
    (new : List (ℕ × ℕ × (α → α))) : Prop where
  edges : G'.edges = G.edges ++ new
  nodes : ∀ w ∈ G.nodes, w ∈ G'.nodes
  ends : ∀ e ∈ new, e.1 ∈ G'.nodes ∧ e.2.1 ∈ G'.nodes
  ext : ∀ n c, spot s t start stop m n = some c → spot s t start stop m' n = some c
  dom : ∀ e ∈ ps, (∃ a, spot s t start stop m' e.1 = some a) ∧ ∃ b, spot s t start stop m' e.2 = some b
  im : ∀ n c, spot s t start stop m' n = some c → c ∈ G'.nodes
  old : ∀ n c, spot s t start stop m' n = some c → c ∈ G.nodes → spot s t start stop m n = some c
  inj : ∀ n n' c, spot s t start stop m' n = some c → spot s t start stop m' n' = some c → n = n'
  touched : ∀ n c, spot s t start stop m' n = some c → spot s t start stop m n = some c ∨
    ∃ p ∈ ps, n = p.1 ∨ n = p.2
  from_image : ∀ e ∈ new, ∀ n, spot s t start stop m' n = some e.1 → ∃ v, (n, v) ∈ ps
  to_image : ∀ e ∈ new, ∀ n, spot s t start stop m' n = some e.2.1 → ∃ u, (u, n) ∈ ps
  from_old : ∀ e ∈ new, e.1 ∈ G.nodes → ∃ n v, (n, v) ∈ ps ∧ spot s t start stop m n = some e.1
  to_old : ∀ e ∈ new, e.2.1 ∈ G.nodes → ∃ u n, (u, n) ∈ ps ∧ spot s t start stop m n = some e.2.1
  out : ∀ p ∈ ps, ∀ a, spot s t start stop m' p.1 = some a → ∃ e ∈ new, e.1 = a
  inn : ∀ p ∈ ps, ∀ b, spot s t start stop m' p.2 = some b → ∃ e ∈ new, e.2.1 = b
  fresh : ∀ w ∈ G'.nodes, w ∉ G.nodes → (∃ n, spot s t start stop m' n = some w ∧ ∃ p ∈ ps, n = p.1 ∨ n = p.2) ∨
    ((∃ e ∈ new, e.1 = w) ∧ ∃ e ∈ new, e.2.1 = w)
  vals : ∀ ival val : ℕ → α, (∀ n c, Free t stop n → spot s t start stop m n = some c → val c = ival n) →
    ∃ val' : ℕ → α, (∀ w ∈ G.nodes, val' w = val w) ∧
      (∀ n c, Free t stop n → spot s t start stop m' n = some c → val' c = ival n) ∧
      (∀ n c, spot s t start stop m' n = some c → inSum new val' c = inSum rs ival n) ∧
      (∀ w ∈ G'.nodes, w ∉ G.nodes → (∀ n, spot s t start stop m' n ≠ some w) →
        val' w = inSum new val' w)
  ranks : ∀ ρ r : ℕ → ℚ, (∀ p ∈ ps, ρ p.1 < ρ p.2) →
    (∀ n c, spot s t start stop m n = some c → r c = ρ n) →
    ∃ r' : ℕ → ℚ, (∀ w ∈ G.nodes, r' w = r w) ∧
      (∀ n c, spot s t start stop m' n = some c → r' c = ρ n) ∧ ∀ e ∈ new, r' e.1 < r' e.2.1

/-- What holds before the loop over the edges `ps`. -/
structure Ready (s t : ℕ) (start stop : Option ℕ) (ps : List (ℕ × ℕ)) (m : List (ℕ × ℕ))
    (G : Flat α) : Prop where
  ends : ∀ e ∈ G.edges, e.1 ∈ G.nodes ∧ e.2.1 ∈ G.nodes
  im : ∀ n c, spot s t start stop m n = some c → c ∈ G.nodes
  inj : ∀ n n' c, spot s t start stop m n = some c → spot s t start stop m n' = some c → n = n'
  clear : ∀ p ∈ ps, ∀ a b, spot s t start stop m p.1 = some a → spot s t start stop m p.2 = some b →
    ∀ e ∈ G.edges, ¬ (e.1 = a ∧ e.2.1 = b)

variable {s t : ℕ} {start stop : Option ℕ} {m m' : List (ℕ × ℕ)} {G G' : Flat α} {n a : ℕ}
  {ps : List (ℕ × ℕ)} {rs : List (ℕ × ℕ × (α → α))} {new : List (ℕ × ℕ × (α → α))}

omit [AddCommMonoid α] in
theorem Ready.place (h : Ready s t start stop ps m G) (hp : Placed s t start stop n m G a m' G') :
    Ready s t start stop ps m' G' := by
  have hcase : ∀ k c, spot s t start stop m' k = some c →
      spot s t start stop m k = some c ∨ k = n ∧ c = a ∧ a ∉ G.nodes := by
    intro k c hk
    by_cases hkn : k = n
    · subst hkn
      rw [hp.now] at hk
      cases hk
      rcases hp.before with hb | hb
      · exact Or.inl hb
      · exact Or.inr ⟨rfl, rfl, hb.2⟩
    · rw [hp.others k hkn] at hk
      exact Or.inl hk
  constructor
  · intro e he
    rw [hp.edges] at he
    obtain ⟨h1, h2⟩ := h.ends e he
    exact ⟨(hp.nodes _).2 (Or.inl h1), (hp.nodes _).2 (Or.inl h2)⟩
  · intro k c hk
    rcases hcase k c hk with hk | ⟨_, rfl, _⟩
    · exact (hp.nodes _).2 (Or.inl (h.im k c hk))
    · exact (hp.nodes _).2 (Or.inr rfl)
  · intro k k' c hk hk'
    rcases hcase k c hk with hk | ⟨e1, e2, hn⟩ <;>
      rcases hcase k' c hk' with hk' | ⟨e1', e2', hn'⟩
    · exact h.inj k k' c hk hk'
    · exact absurd (h.im _ _ hk) (e2' ▸ hn')
    · exact absurd (h.im _ _ hk') (e2 ▸ hn)
    · rw [e1, e1']
  · intro p hps x y hx hy e he hxy
    rw [hp.edges] at he
    obtain ⟨h1, h2⟩ := h.ends e he
    rw [hxy.1] at h1
    rw [hxy.2] at h2
    rcases hcase _ _ hx with hx | ⟨_, rfl, hn⟩
    · rcases hcase _ _ hy with hy | ⟨_, rfl, hn⟩
      · exact h.clear p hps x y hx hy e he hxy
      · exact hn h2
    · exact hn h1

/-- The loop, seen from before one of its nodes was placed. -/
theorem Looped.unplace {m₁ : List (ℕ × ℕ)} {G₁ : Flat α}
    (h : Looped s t start stop ps rs m₁ G₁ m' G' new)
    (hr : Ready s t start stop ps m G) (hp : Placed s t start stop n m G a m₁ G₁) (hend : ∃ p ∈ ps, n = p.1 ∨ n = p.2) :
    Looped s t start stop ps rs m G m' G' new := by
  have hup : ∀ w ∈ G.nodes, w ∈ G₁.nodes := fun w hw => (hp.nodes w).2 (Or.inl hw)
  have hback : ∀ k c, spot s t start stop m₁ k = some c → c ∈ G.nodes →
      spot s t start stop m k = some c := by
    intro k c hk hc
    by_cases hkn : k = n
    · subst hkn
      rw [hp.now] at hk
      cases hk
      rcases hp.before with hb | hb
      · exact hb
      · exact absurd hc hb.2
    · rwa [hp.others k hkn] at hk
  have hfwd : ∀ k c, spot s t start stop m k = some c → spot s t start stop m₁ k = some c := by
    intro k c hk
    by_cases hkn : k = n
    · subst hkn
      rcases hp.before with hb | hb
      · rw [hb] at hk
        rw [← hk]
        exact hp.now
      · rw [hb.1] at hk
        cases hk
    · rwa [hp.others k hkn]
  constructor
  · rw [h.edges, hp.edges]
  · exact fun w hw => h.nodes w (hup w hw)
  · exact h.ends
  · exact fun k c hk => h.ext k c (hfwd k c hk)
  · exact h.dom
  · exact h.im
  · exact fun k c hk hc => hback k c (h.old k c hk (hup c hc)) hc
  · exact h.inj
  · intro k c hk
    by_cases hkn : k = n
    · exact Or.inr (hkn ▸ hend)
    · rcases h.touched k c hk with h1 | h1
      · rw [hp.others k hkn] at h1
        exact Or.inl h1
      · exact Or.inr h1
  · exact h.from_image
  · exact h.to_image
  · intro e he hc
    obtain ⟨k, v, h1, h2⟩ := h.from_old e he (hup _ hc)
    exact ⟨k, v, h1, hback _ _ h2 hc⟩
  · intro e he hc
    obtain ⟨k, v, h1, h2⟩ := h.to_old e he (hup _ hc)
    exact ⟨k, v, h1, hback _ _ h2 hc⟩
  · exact h.out
  · exact h.inn
  · intro w hw hn
    by_cases hw1 : w ∈ G₁.nodes
    · rcases (hp.nodes w).1 hw1 with h1 | rfl
      · exact absurd h1 hn
      · exact Or.inl ⟨n, h.ext _ _ hp.now, hend⟩
    · exact h.fresh w hw hw1
  · intro ival val hval
    rcases hp.before with hb | ⟨hb, hna⟩
    · obtain ⟨val', h1, h2, h3, h4⟩ := h.vals ival val (by
        intro k c hf hk
        by_cases hkn : k = n
        · subst hkn
          rw [hp.now] at hk
          cases hk
          exact hval k a hf hb
        · rw [hp.others k hkn] at hk
          exact hval k c hf hk)
      refine ⟨val', fun w hw => h1 w (hup w hw), h2, h3, ?_⟩
      intro w hw hn hno
      apply h4 w hw _ hno
      intro hw1
      rcases (hp.nodes w).1 hw1 with h1 | rfl
      · exact hn h1
      · exact hno n (h.ext _ _ hp.now)
    · obtain ⟨val', h1, h2, h3, h4⟩ := h.vals ival (fun w => if w ∈ G.nodes then val w else ival n) (by
        intro k c hf hk
        by_cases hkn : k = n
        · subst hkn
          rw [hp.now] at hk
          cases hk
          rw [if_neg hna]
        · rw [hp.others k hkn] at hk
          rw [if_pos (hr.im k c hk)]
          exact hval k c hf hk)
      refine ⟨val', ?_, h2, h3, ?_⟩
      · intro w hw
        rw [h1 w (hup w hw), if_pos hw]
      · intro w hw hn hno
        apply h4 w hw _ hno
        intro hw1
        rcases (hp.nodes w).1 hw1 with h1 | rfl
        · exact hn h1
        · exact hno n (h.ext _ _ hp.now)
  · intro ρ r hρ hr'
    rcases hp.before with hb | ⟨hb, hna⟩
    · obtain ⟨r', h1, h2, h3⟩ := h.ranks ρ r hρ (by
        intro k c hk
        by_cases hkn : k = n
        · subst hkn
          rw [hp.now] at hk
          cases hk
          exact hr' k a hb
        · rw [hp.others k hkn] at hk
          exact hr' k c hk)
      exact ⟨r', fun w hw => h1 w (hup w hw), h2, h3⟩
    · obtain ⟨r', h1, h2, h3⟩ := h.ranks ρ (fun w => if w ∈ G.nodes then r w else ρ n) hρ (by
        intro k c hk
        by_cases hkn : k = n
        · subst hkn
          rw [hp.now] at hk
          cases hk
          rw [if_neg hna]
        · rw [hp.others k hkn] at hk
          rw [if_pos (hr.im k c hk)]
          exact hr' k c hk)
      refine ⟨r', ?_, h2, h3⟩
      intro w hw
      rw [h1 w (hup w hw), if_pos hw]

/-- The loop without edges. -/
theorem looped_nil (hr : Ready s t start stop [] m G) :
    Looped s t start stop [] [] m G m G [] := by
  constructor
  · simp
  · exact fun _ h => h
  · simp
  · exact fun _ _ h => h
  · simp
  · exact hr.im
  · exact fun _ _ h _ => h
  · exact hr.inj
  · exact fun _ _ h => Or.inl h
  · simp
  · simp
  · simp
  · simp
  · simp
  · simp
  · intro w h h'; exact absurd h h'
  · intro ival val hval
    exact ⟨val, fun _ _ => rfl, hval, fun _ _ _ => rfl, fun w h h' => absurd h h'⟩
  · intro ρ r _ hr'
    exact ⟨r, fun _ _ => rfl, hr', by simp⟩

/-- What holds after an edge was inserted. -/
theorem Ready.ext {u v a b : ℕ} {F : α → α} (h : Ready s t start stop ((u, v) :: ps) m G)
    (hnd : (u, v) ∉ ps) (hu : spot s t start stop m u = some a) (hv : spot s t start stop m v = some b)
    (he : Ext G G' a b F new) : Ready s t start stop ps m G' := by
  constructor
  · intro e hm
    rw [he.edges, List.mem_append] at hm
    rcases hm with hm | hm
    · obtain ⟨h1, h2⟩ := h.ends e hm
      exact ⟨he.nodes _ h1, he.nodes _ h2⟩
    · exact he.ends e hm
  · exact fun n c hn => he.nodes _ (h.im n c hn)
  · exact h.inj
  · intro p hp x y hx hy e hm hxy
    rw [he.edges, List.mem_append] at hm
    rcases hm with hm | hm
    · exact h.clear p (List.mem_cons_of_mem _ hp) x y hx hy e hm hxy
    · have h1 := he.from_a e hm (by rw [hxy.1]; exact h.im _ _ hx)
      have h2 := he.to_b e hm (by rw [hxy.2]; exact h.im _ _ hy)
      have e1 : p.1 = u := h.inj _ _ a (by rw [hx, ← hxy.1, h1]) hu
      have e2 : p.2 = v := h.inj _ _ b (by rw [hy, ← hxy.2, h2]) hv
      apply hnd
      rw [← e1, ← e2]
      exact hp

/-- One edge, with both its nodes placed, and the loop after it. -/
theorem looped_cons {u v a b : ℕ} {F : α → α} {G₁ : Flat α} {newE : List (ℕ × ℕ × (α → α))}
    (hr : Ready s t start stop ((u, v) :: ps) m G) (hut : Free t stop u)
    (hu : spot s t start stop m u = some a) (hv : spot s t start stop m v = some b)
    (he : Ext G G₁ a b F newE) (hl : Looped s t start stop ps rs m G₁ m' G' new) :
    Looped s t start stop ((u, v) :: ps) ((u, v, F) :: rs) m G m' G' (newE ++ new) := by
  have ha := hr.im _ _ hu
  have hb := hr.im _ _ hv
  constructor
  · rw [hl.edges, he.edges, List.append_assoc]
  · exact fun w hw => hl.nodes w (he.nodes w hw)
  · intro e hm
    rcases List.mem_append.1 hm with hm | hm
    · obtain ⟨h1, h2⟩ := he.ends e hm
      exact ⟨hl.nodes _ h1, hl.nodes _ h2⟩
    · exact hl.ends e hm
  · exact hl.ext
  · intro p hp
    rcases List.mem_cons.1 hp with rfl | hp
    · exact ⟨⟨a, hl.ext _ _ hu⟩, ⟨b, hl.ext _ _ hv⟩⟩
    · exact hl.dom p hp
  · exact hl.im
  · exact fun n c hn hc => hl.old n c hn (he.nodes c hc)
  · exact hl.inj
  · intro n c hn
    rcases hl.touched n c hn with h1 | ⟨p, hp, h1⟩
    · exact Or.inl h1
    · exact Or.inr ⟨p, List.mem_cons_of_mem _ hp, h1⟩
  · intro e hm n hn
    rcases List.mem_append.1 hm with hm | hm
    · have hG : e.1 ∈ G.nodes := hr.im n _ (hl.old n _ hn (he.ends e hm).1)
      rw [he.from_a e hm hG] at hn
      rw [hl.inj n u a hn (hl.ext _ _ hu)]
      exact ⟨v, List.mem_cons_self⟩
    · obtain ⟨w, hw⟩ := hl.from_image e hm n hn
      exact ⟨w, List.mem_cons_of_mem _ hw⟩
  · intro e hm n hn
    rcases List.mem_append.1 hm with hm | hm
    · have hG : e.2.1 ∈ G.nodes := hr.im n _ (hl.old n _ hn (he.ends e hm).2)
      rw [he.to_b e hm hG] at hn
      rw [hl.inj n v b hn (hl.ext _ _ hv)]
      exact ⟨u, List.mem_cons_self⟩
    · obtain ⟨w, hw⟩ := hl.to_image e hm n hn
      exact ⟨w, List.mem_cons_of_mem _ hw⟩
  · intro e hm hc
    rcases List.mem_append.1 hm with hm | hm
    · refine ⟨u, v, List.mem_cons_self, ?_⟩
      rw [he.from_a e hm hc]
      exact hu
    · obtain ⟨n, w, h1, h2⟩ := hl.from_old e hm (he.nodes _ hc)
      exact ⟨n, w, List.mem_cons_of_mem _ h1, h2⟩
  · intro e hm hc
    rcases List.mem_append.1 hm with hm | hm
    · refine ⟨u, v, List.mem_cons_self, ?_⟩
      rw [he.to_b e hm hc]
      exact hv
    · obtain ⟨n, w, h1, h2⟩ := hl.to_old e hm (he.nodes _ hc)
      exact ⟨n, w, List.mem_cons_of_mem _ h1, h2⟩
  · intro p hp c hc
    rcases List.mem_cons.1 hp with rfl | hp
    · obtain ⟨e, h1, h2⟩ := he.out
      have := hl.ext _ _ hu
      rw [this] at hc
      cases hc
      exact ⟨e, List.mem_append_left _ h1, h2⟩
    · obtain ⟨e, h1, h2⟩ := hl.out p hp c hc
      exact ⟨e, List.mem_append_right _ h1, h2⟩
  · intro p hp c hc
    rcases List.mem_cons.1 hp with rfl | hp
    · obtain ⟨e, h1, h2⟩ := he.inn
      have := hl.ext _ _ hv
      rw [this] at hc
      cases hc
      exact ⟨e, List.mem_append_left _ h1, h2⟩
    · obtain ⟨e, h1, h2⟩ := hl.inn p hp c hc
      exact ⟨e, List.mem_append_right _ h1, h2⟩
  · intro w hw hn
    by_cases h1 : w ∈ G₁.nodes
    · obtain ⟨⟨e, h2, h3⟩, ⟨e', h4, h5⟩⟩ := he.fresh w h1 hn
      exact Or.inr ⟨⟨e, List.mem_append_left _ h2, h3⟩, ⟨e', List.mem_append_left _ h4, h5⟩⟩
    · rcases hl.fresh w hw h1 with ⟨n, h2, p, hp, h3⟩ | ⟨⟨e, h2, h3⟩, ⟨e', h4, h5⟩⟩
      · exact Or.inl ⟨n, h2, p, List.mem_cons_of_mem _ hp, h3⟩
      · exact Or.inr ⟨⟨e, List.mem_append_right _ h2, h3⟩, ⟨e', List.mem_append_right _ h4, h5⟩⟩
  · intro ival val hval
    obtain ⟨val₁, e1, e2, e3⟩ := he.vals val
    obtain ⟨val', l1, l2, l3, l4⟩ := hl.vals ival val₁ (by
      intro n c hf hn
      rw [e1 c (hr.im n c hn)]
      exact hval n c hf hn)
    have hsame : ∀ w, inSum newE val' w = inSum newE val₁ w :=
      inSum_congr fun e hm => l1 _ (he.ends e hm).1
    refine ⟨val', fun w hw => by rw [l1 w (he.nodes w hw), e1 w hw], l2, ?_, ?_⟩
    · intro n c hn
      rw [inSum_append, inSum_cons, l3 n c hn, hsame]
      congr 1
      by_cases hvn : v = n
      · subst hvn
        have hcb : c = b := by
          have := hl.ext _ _ hv
          rw [hn] at this
          exact Option.some.inj this
        rw [hcb, e3, hval u a hut hu]
        simp
      · rw [if_neg (by simpa using hvn)]
        apply inSum_zero
        intro e hm hc
        by_cases hG : c ∈ G.nodes
        · have h1 := he.to_b e hm (by rw [hc]; exact hG)
          have h2 := hl.inj n v b (by rw [hn, ← hc, h1]) (hl.ext _ _ hv)
          exact hvn h2.symm
        · have h1 : c ∈ G₁.nodes := hc ▸ (he.ends e hm).2
          exact hG (hr.im n c (hl.old n c hn h1))
    · intro w hw hn hno
      rw [inSum_append]
      by_cases h1 : w ∈ G₁.nodes
      · have h2 : inSum new val' w = 0 := by
          apply inSum_zero
          intro e hm hc
          obtain ⟨k, n, _, h3⟩ := hl.to_old e hm (hc ▸ h1)
          exact hno n (hc ▸ hl.ext _ _ h3)
        rw [h2, add_zero, hsame, l1 w h1]
        exact e2 w h1 hn
      · have h2 : inSum newE val' w = 0 := by
          apply inSum_zero
          intro e hm hc
          exact h1 (hc ▸ (he.ends e hm).2)
        rw [h2, zero_add]
        exact l4 w hw h1 hno
  · intro ρ r hρ hr'
    obtain ⟨r₁, e1, e2⟩ := he.ranks r (by
      rw [hr' u a hu, hr' v b hv]
      exact hρ (u, v) List.mem_cons_self)
    obtain ⟨r', l1, l2, l3⟩ := hl.ranks ρ r₁ (fun p hp => hρ p (List.mem_cons_of_mem _ hp)) (by
      intro n c hn
      rw [e1 c (hr.im n c hn)]
      exact hr' n c hn)
    refine ⟨r', fun w hw => by rw [l1 w (he.nodes w hw), e1 w hw], l2, ?_⟩
    intro e hm
    rcases List.mem_append.1 hm with hm | hm
    · rw [l1 _ (he.ends e hm).1, l1 _ (he.ends e hm).2]
      exact e2 e hm
    · exact l3 e hm

/-! ## Topologies -/

omit [AddCommMonoid α] in
theorem Net.Ops.pairs {N : Net α} {es : List (ℕ × ℕ × (α → α))} (h : N.Ops es) :
    es.map (fun e => (e.1, e.2.1)) = N.pairs := by
  induction h with
  | nil => rfl
  | prim _ ih => simp [Net.pairs, ih]
  | sub _ _ _ _ ih => simp [Net.pairs, ih]

omit [AddCommMonoid α] in
theorem Net.Ops.mem {N : Net α} {es : List (ℕ × ℕ × (α → α))} (h : N.Ops es) (u v : ℕ) :
    (u, v) ∈ N.pairs ↔ ∃ f, (u, v, f) ∈ es := by
  rw [← h.pairs, List.mem_map]
  constructor
  · rintro ⟨e, he, h⟩
    cases h
    exact ⟨e.2.2, he⟩
  · rintro ⟨f, hf⟩
    exact ⟨_, hf, rfl⟩

theorem Level.rescale (h : Level ps s t) (A B : ℚ) (hAB : A < B) :
    ∃ ρ : ℕ → ℚ, ρ s = A ∧ ρ t = B ∧ ∀ p ∈ ps, ρ p.1 < ρ p.2 := by
  obtain ⟨ρ, hρ⟩ := h.rank
  set K := ρ t with hK
  have hst : s ≠ t := by
    rintro rfl
    obtain ⟨⟨v, hv⟩, _⟩ := h.source
    exact h.sink.2 v hv
  set M := (ps.map fun p => ρ p.1).foldl max 0 with hM
  have hle : ∀ p ∈ ps, ρ p.1 ≤ M := by
    intro p hp
    exact foldl_max_ge _ 0 _ (Or.inl (List.mem_map_of_mem hp))
  have hpos : (0 : ℚ) < (M : ℚ) + 2 := by positivity
  refine ⟨fun n => if n = s then A else if n = t then B else A + (B - A) * ((ρ n + 1) / (M + 2)),
    by simp, by simp [Ne.symm hst], ?_⟩
  intro p hp
  have h1 : p.2 ≠ s := fun e => h.source.2 p.1 (e ▸ hp)
  have h2 : p.1 ≠ t := fun e => h.sink.2 p.2 (e ▸ hp)
  have hBA : 0 < B - A := by linarith
  have hlt : ∀ n, ρ n ≤ M → A + (B - A) * (((ρ n : ℚ) + 1) / (M + 2)) < B := by
    intro n hn
    have : ((ρ n : ℚ) + 1) / (M + 2) < 1 := by
      rw [div_lt_one hpos]
      have : (ρ n : ℚ) ≤ M := by exact_mod_cast hn
      linarith
    nlinarith
  have hgt : ∀ n, A < A + (B - A) * (((ρ n : ℚ) + 1) / (M + 2)) := by
    intro n
    have : 0 < ((ρ n : ℚ) + 1) / (M + 2) := by positivity
    nlinarith
  simp only [if_neg h1, if_neg h2]
  by_cases h3 : p.1 = s <;> by_cases h4 : p.2 = t
  · simp [h3, h4, hAB]
  · simp only [if_pos h3, if_neg h4]
    exact hgt _
  · simp only [if_neg h3, if_pos h4]
    exact hlt _ (hle p hp)
  · simp only [if_neg h3, if_neg h4]
    have : ((ρ p.1 : ℚ) + 1) / (M + 2) < ((ρ p.2 : ℚ) + 1) / (M + 2) := by
      apply div_lt_div_of_pos_right _ hpos
      have := hρ p hp
      have : (ρ p.1 : ℚ) < ρ p.2 := by exact_mod_cast this
      linarith
    nlinarith

theorem spot_nil (s t : ℕ) (start stop : Option ℕ) (n : ℕ) :
    spot s t start stop [] n = if n = s then start else if n = t then stop else none := rfl

/-- A whole topology, inserted between two nodes. -/
theorem ext_of_looped {a b : ℕ} {F : α → α} (hlev : Level ps s t) (hrs : ∀ u v, (u, v) ∈ ps ↔ ∃ f, (u, v, f) ∈ rs)
    (hF : Computes List.sum rs F) (ha : a ∈ G.nodes) (hb : b ∈ G.nodes)
    (hl : Looped s t (some a) (some b) ps rs [] G m' G' new) : Ext G G' a b F new := by
  have hst : s ≠ t := by
    rintro rfl
    obtain ⟨⟨v, hv⟩, _⟩ := hlev.source
    exact hlev.sink.2 v hv
  have hs0 : spot s t (some a) (some b) [] s = some a := by simp [spot_nil]
  have ht0 : spot s t (some a) (some b) [] t = some b := by simp [spot_nil, Ne.symm hst]
  have hs := hl.ext _ _ hs0
  have ht := hl.ext _ _ ht0
  constructor
  · exact hl.edges
  · exact hl.nodes
  · exact hl.ends
  · intro e he hm
    obtain ⟨n, v, h1, h2⟩ := hl.from_old e he hm
    rw [spot_nil] at h2
    have hn : n ≠ t := fun h => hlev.sink.2 v (h ▸ h1)
    by_cases hns : n = s
    · rw [if_pos hns] at h2
      exact (Option.some.inj h2).symm
    · rw [if_neg hns, if_neg hn] at h2
      cases h2
  · intro e he hm
    obtain ⟨u, n, h1, h2⟩ := hl.to_old e he hm
    rw [spot_nil] at h2
    have hn : n ≠ s := fun h => hlev.source.2 u (h ▸ h1)
    rw [if_neg hn] at h2
    by_cases hnt : n = t
    · rw [if_pos hnt] at h2
      exact (Option.some.inj h2).symm
    · rw [if_neg hnt] at h2
      cases h2
  · obtain ⟨⟨v, hv⟩, _⟩ := hlev.source
    exact hl.out _ hv a hs
  · obtain ⟨⟨u, hu⟩, _⟩ := hlev.sink
    exact hl.inn _ hu b ht
  · intro w hw hn
    rcases hl.fresh w hw hn with ⟨n, h1, p, hp, h2⟩ | h
    · have hns : n ≠ s := by
        rintro rfl
        rw [hs] at h1
        cases h1
        exact hn ha
      have hnt : n ≠ t := by
        rintro rfl
        rw [ht] at h1
        cases h1
        exact hn hb
      rcases h2 with rfl | rfl
      · obtain ⟨w', hw'⟩ := (hlev.sourceOnly p hp).resolve_left hns
        exact ⟨hl.out p hp w h1, hl.inn _ hw' w h1⟩
      · obtain ⟨w', hw'⟩ := (hlev.sinkOnly p hp).resolve_left hnt
        exact ⟨hl.out _ hw' w h1, hl.inn p hp w h1⟩
    · exact h
  · intro val
    obtain ⟨ival, c1, c2, c3⟩ := hF (val a)
    have hin : ∀ n, (∃ u, (u, n) ∈ ps) → ival n = inSum rs ival n := by
      rintro n ⟨u, hu⟩
      obtain ⟨f, hf⟩ := (hrs u n).1 hu
      rw [c2 _ hf, mergeInputs_sum]
      rfl
    have hsx : ival s = val a := by
      obtain ⟨⟨v, hv⟩, hno⟩ := hlev.source
      obtain ⟨f, hf⟩ := (hrs s v).1 hv
      refine c1 _ hf fun e' he' h => hno e'.1 ?_
      rw [hrs]
      refine ⟨e'.2.2, ?_⟩
      have : (e'.1, s, e'.2.2) = e' := by
        obtain ⟨x, y, z⟩ := e'
        cases h
        rfl
      rw [this]
      exact he'
    have htx : ival t = F (val a) := by
      obtain ⟨⟨u, hu⟩, hno⟩ := hlev.sink
      obtain ⟨f, hf⟩ := (hrs u t).1 hu
      refine c3 _ hf fun e' he' h => hno e'.2.1 ?_
      rw [hrs]
      refine ⟨e'.2.2, ?_⟩
      have : (t, e'.2.1, e'.2.2) = e' := by
        obtain ⟨x, y, z⟩ := e'
        cases h
        rfl
      rw [this]
      exact he'
    obtain ⟨val', l1, l2, l3, l4⟩ := hl.vals ival val (by
      intro n c hf hn
      have hnt : n ≠ t := hf.resolve_right (by simp)
      rw [spot_nil] at hn
      by_cases hns : n = s
      · rw [if_pos hns] at hn
        cases hn
        rw [hns, hsx]
      · rw [if_neg hns, if_neg hnt] at hn
        cases hn)
    refine ⟨val', l1, ?_, ?_⟩
    · intro w hw hn
      by_cases him : ∃ n, spot s t (some a) (some b) m' n = some w
      · obtain ⟨n, h1⟩ := him
        have hns : n ≠ s := by
          rintro rfl
          rw [hs] at h1
          cases h1
          exact hn ha
        have hnt : n ≠ t := by
          rintro rfl
          rw [ht] at h1
          cases h1
          exact hn hb
        rw [l2 n w (Or.inl hnt) h1, l3 n w h1]
        apply hin
        rcases hl.touched n w h1 with h2 | ⟨p, hp, h2⟩
        · rw [spot_nil, if_neg hns, if_neg hnt] at h2
          cases h2
        · rcases h2 with rfl | rfl
          · exact (hlev.sourceOnly p hp).resolve_left hns
          · exact ⟨p.1, hp⟩
      · exact l4 w hw hn fun n h => him ⟨n, h⟩
    · rw [l3 t b ht, ← hin t hlev.sink.1, htx]
  · intro r hr
    obtain ⟨ρ, h1, h2, h3⟩ := hlev.rescale (r a) (r b) hr
    obtain ⟨r', l1, _, l3⟩ := hl.ranks ρ r h3 (by
      intro n c hn
      rw [spot_nil] at hn
      by_cases hns : n = s
      · rw [if_pos hns] at hn
        cases hn
        rw [hns, h1]
      · rw [if_neg hns] at hn
        by_cases hnt : n = t
        · rw [if_pos hnt] at hn
          cases hn
          rw [hnt, h2]
        · rw [if_neg hnt] at hn
          cases hn)
    exact ⟨r', l1, l3⟩

theorem noInput_iff {all : List (ℕ × ℕ)} (h : Level all s t) {u v : ℕ} (he : (u, v) ∈ all) :
    noInput all u = true ↔ u = s := by
  unfold noInput
  rw [List.all_eq_true]
  constructor
  · intro hn
    rcases h.sourceOnly _ he with h1 | ⟨w, hw⟩
    · exact h1
    · have := hn _ hw
      simp at this
  · rintro rfl e he'
    simp only [decide_eq_true_eq]
    intro h2
    exact h.source.2 e.1 (h2 ▸ he')

theorem noOutput_iff {all : List (ℕ × ℕ)} (h : Level all s t) {u v : ℕ} (he : (u, v) ∈ all) :
    noOutput all v = true ↔ v = t := by
  unfold noOutput
  rw [List.all_eq_true]
  constructor
  · intro hn
    rcases h.sinkOnly _ he with h1 | ⟨w, hw⟩
    · exact h1
    · have := hn _ hw
      simp at this
  · rintro rfl e he'
    simp only [decide_eq_true_eq]
    intro h2
    exact h.sink.2 e.2 (h2 ▸ he')

/-- One round of the loop, for an edge that is inserted by `ins`. -/
theorem round_ok {all : List (ℕ × ℕ)} (hlev : Level all s t) {u v : ℕ} {F : α → α}
    (he : (u, v) ∈ all) (hnd : (u, v) ∉ ps) (hr : Ready s t start stop ((u, v) :: ps) m G)
    (ins : ℕ → ℕ → Flat α → Flat α)
    (hins : ∀ a b G₁, a ∈ G₁.nodes → b ∈ G₁.nodes → a ≠ b →
      (∀ e ∈ G₁.edges, e.1 ∈ G₁.nodes ∧ e.2.1 ∈ G₁.nodes) →
      (∀ e ∈ G₁.edges, ¬ (e.1 = a ∧ e.2.1 = b)) → ∃ new, Ext G₁ (ins a b G₁) a b F new)
    (loop : List (ℕ × ℕ) → Flat α → Flat α)
    (hloop : ∀ m₁ G₁, Ready s t start stop ps m₁ G₁ →
      ∃ m' new, Looped s t start stop ps rs m₁ G₁ m' (loop m₁ G₁) new) :
    ∃ m' new, Looped s t start stop ((u, v) :: ps) ((u, v, F) :: rs) m G m'
      (let p := place (if noInput all u then start else none) u m G
       let q := place (if noOutput all v then stop else none) v p.2.1 p.2.2
       loop q.2.1 (ins p.1 q.1 q.2.2)) new := by
  have hut : u ≠ t := fun h => hlev.sink.2 v (h ▸ he)
  have hvs : v ≠ s := fun h => hlev.source.2 u (h ▸ he)
  have huv : u ≠ v := by
    obtain ⟨ρ, hρ⟩ := hlev.rank
    rintro rfl
    exact lt_irrefl _ (hρ _ he)
  have hp := place_ok (s := s) (t := t) (start := start) (stop := stop)
    (wanted := if noInput all u then start else none) (n := u) (m := m) (G := G) (by
      intro h0
      unfold spot
      rw [h0]
      by_cases hus : u = s
      · rw [if_pos ((noInput_iff hlev he).2 hus), if_pos hus]
      · rw [if_neg (fun h => hus ((noInput_iff hlev he).1 h)), if_neg hus, if_neg hut]) hr.im
  have hr1 := hr.place hp
  have hq := place_ok (s := s) (t := t) (start := start) (stop := stop)
    (wanted := if noOutput all v then stop else none) (n := v)
    (m := (place (if noInput all u then start else none) u m G).2.1)
    (G := (place (if noInput all u then start else none) u m G).2.2) (by
      intro h0
      unfold spot
      rw [h0]
      by_cases hvt : v = t
      · rw [if_pos ((noOutput_iff hlev he).2 hvt), if_neg hvs, if_pos hvt]
      · rw [if_neg (fun h => hvt ((noOutput_iff hlev he).1 h)), if_neg hvs, if_neg hvt]) hr1.im
  have hr2 := hr1.place hq
  simp only
  set p := place (if noInput all u then start else none) u m G with hpdef
  set q := place (if noOutput all v then stop else none) v p.2.1 p.2.2 with hqdef
  have hsu : spot s t start stop q.2.1 u = some p.1 := by
    rw [hq.others u huv]
    exact hp.now
  have hsv : spot s t start stop q.2.1 v = some q.1 := hq.now
  obtain ⟨newE, hext⟩ := hins p.1 q.1 q.2.2 (hr2.im _ _ hsu) (hr2.im _ _ hsv)
    (fun h => huv (hr2.inj u v p.1 hsu (h ▸ hsv))) hr2.ends
    (hr2.clear (u, v) List.mem_cons_self _ _ hsu hsv)
  obtain ⟨m', new, hl⟩ := hloop q.2.1 (ins p.1 q.1 q.2.2) (hr2.ext hnd hsu hsv hext)
  have hc := looped_cons hr2 (Or.inl hut) hsu hsv hext hl
  exact ⟨m', _, (hc.unplace hr1 hq ⟨_, List.mem_cons_self, Or.inr rfl⟩).unplace hr hp
    ⟨_, List.mem_cons_self, Or.inl rfl⟩⟩

theorem flattenLoop_ok (N : Net α) : ∀ (all : List (ℕ × ℕ)) (s t : ℕ) (start stop : Option ℕ)
    (m : List (ℕ × ℕ)) (G : Flat α) (rs : List (ℕ × ℕ × (α → α))), Level all s t → N.Nested →
    N.Ops rs → (∀ p ∈ N.pairs, p ∈ all) → N.pairs.Nodup → Ready s t start stop N.pairs m G →
    ∃ m' new, Looped s t start stop N.pairs rs m G m' (flattenLoop all start stop N m G) new := by
  induction N with
  | nil =>
    intro all s t start stop m G rs _ _ hops _ _ hr
    cases hops
    exact ⟨m, [], looped_nil hr⟩
  | prim u v f rest ih =>
    intro all s t start stop m G rs hlev hN hops hall hnd hr
    cases hops with
    | prim hops =>
      obtain ⟨h1, h2⟩ := List.nodup_cons.1 hnd
      exact round_ok hlev (hall _ List.mem_cons_self) h1 hr (fun a b G => G.addEdge a b f)
        (fun a b G₁ ha hb _ _ hno => ⟨_, ext_addEdge f ha hb hno⟩)
        (fun m G => flattenLoop all start stop rest m G)
        (fun m₁ G₁ hr₁ => ih all s t start stop m₁ G₁ _ hlev hN hops
          (fun p hp => hall p (List.mem_cons_of_mem _ hp)) h2 hr₁)
  | sub u v merge inner rest ihi ihr =>
    intro all s t start stop m G rs hlev hN hops hall hnd hr
    obtain ⟨hsum, ⟨s', t', hlev'⟩, hinner, hrest⟩ := hN
    cases hops with
    | @sub _ _ _ _ _ is F es hois hF hops =>
      obtain ⟨h1, h2⟩ := List.nodup_cons.1 hnd
      refine round_ok hlev (hall _ List.mem_cons_self) h1 hr
        (fun a b G => flattenLoop inner.pairs (some a) (some b) inner [] G) ?_
        (fun m G => flattenLoop all start stop rest m G)
        (fun m₁ G₁ hr₁ => ihr all s t start stop m₁ G₁ _ hlev hrest hops
          (fun p hp => hall p (List.mem_cons_of_mem _ hp)) h2 hr₁)
      intro a b G₁ ha hb hab hends hno
      have hst : s' ≠ t' := by
        rintro rfl
        obtain ⟨⟨v, hv⟩, _⟩ := hlev'.source
        exact hlev'.sink.2 v hv
      have hcase : ∀ n c, spot s' t' (some a) (some b) [] n = some c →
          n = s' ∧ c = a ∨ n = t' ∧ c = b := by
        intro n c hn
        rw [spot_nil] at hn
        by_cases hns : n = s'
        · rw [if_pos hns] at hn
          exact Or.inl ⟨hns, (Option.some.inj hn).symm⟩
        · rw [if_neg hns] at hn
          by_cases hnt : n = t'
          · rw [if_pos hnt] at hn
            exact Or.inr ⟨hnt, (Option.some.inj hn).symm⟩
          · rw [if_neg hnt] at hn
            cases hn
      obtain ⟨m', new, hl⟩ := ihi inner.pairs s' t' (some a) (some b) [] G₁ is hlev' hinner hois
        (fun _ h => h) hlev'.nodup (by
          constructor
          · exact hends
          · intro n c hn
            rcases hcase n c hn with ⟨_, rfl⟩ | ⟨_, rfl⟩
            · exact ha
            · exact hb
          · intro n n' c hn hn'
            rcases hcase n c hn with ⟨e1, e2⟩ | ⟨e1, e2⟩ <;>
              rcases hcase n' c hn' with ⟨e3, e4⟩ | ⟨e3, e4⟩
            · rw [e1, e3]
            · exact absurd (e2.symm.trans e4) hab
            · exact absurd (e4.symm.trans e2) hab
            · rw [e1, e3]
          · intro p hp x y hx hy
            have hpt : p.1 ≠ t' := fun h => hlev'.sink.2 p.2 (h ▸ hp)
            have hps : p.2 ≠ s' := fun h => hlev'.source.2 p.1 (h ▸ hp)
            rcases hcase _ _ hx with ⟨_, rfl⟩ | ⟨e1, _⟩
            · rcases hcase _ _ hy with ⟨e1, _⟩ | ⟨_, rfl⟩
              · exact absurd e1 hps
              · exact hno
            · exact absurd e1 hpt)
      subst hsum
      exact ⟨new, ext_of_looped hlev' hois.mem hF ha hb hl⟩

/-! ## The flat graph -/

omit [AddCommMonoid α] in
theorem addEdge_nodup {a b : ℕ} (f : α → α) (h : (G.edges.map fun e => (e.1, e.2.1)).Nodup) :
    ((G.addEdge a b f).edges.map fun e => (e.1, e.2.1)).Nodup := by
  unfold Flat.addEdge
  split
  · have : (G.edges.map fun e => if e.1 = a ∧ e.2.1 = b then (a, b, f) else e).map
        (fun e => (e.1, e.2.1)) = G.edges.map fun e => (e.1, e.2.1) := by
      rw [List.map_map]
      apply List.map_congr_left
      intro e _
      simp only [Function.comp_apply]
      split
      · rename_i h; rw [h.1, h.2]
      · rfl
    simp only [this]
    exact h
  · rename_i hany
    simp only [List.map_append, List.map_cons, List.map_nil]
    rw [List.nodup_append]
    refine ⟨h, by simp, ?_⟩
    intro x hx y hy hxy
    rw [List.mem_singleton] at hy
    subst hy
    subst hxy
    obtain ⟨e, he, h2⟩ := List.mem_map.1 hx
    apply hany
    rw [List.any_eq_true]
    refine ⟨e, he, ?_⟩
    simp only [Prod.mk.injEq] at h2
    simpa using h2

omit [AddCommMonoid α] in
theorem place_edges (wanted : Option ℕ) (n : ℕ) (m : List (ℕ × ℕ)) (G : Flat α) :
    (place wanted n m G).2.2.edges = G.edges := by
  unfold place
  split
  · rfl
  · exact addNode_edges _ _

omit [AddCommMonoid α] in
theorem flattenLoop_nodup (N : Net α) : ∀ (all : List (ℕ × ℕ)) (start stop : Option ℕ)
    (m : List (ℕ × ℕ)) (G : Flat α), (G.edges.map fun e => (e.1, e.2.1)).Nodup →
    ((flattenLoop all start stop N m G).edges.map fun e => (e.1, e.2.1)).Nodup := by
  induction N with
  | nil => intro all start stop m G h; exact h
  | prim u v f rest ih =>
    intro all start stop m G h
    apply ih
    apply addEdge_nodup
    rw [place_edges, place_edges]
    exact h
  | sub u v merge inner rest ihi ihr =>
    intro all start stop m G h
    apply ihr
    apply ihi
    rw [place_edges, place_edges]
    exact h

theorem countP_lt_of_mem {x y : ℚ} (hxy : x < y) : ∀ l : List ℚ, x ∈ l →
    l.countP (· < x) < l.countP (· < y) := by
  have hmono : ∀ l : List ℚ, l.countP (· < x) ≤ l.countP (· < y) := fun l =>
    List.countP_mono_left fun z _ hz => by
      simp only [decide_eq_true_eq] at hz ⊢
      exact hz.trans hxy
  intro l
  induction l with
  | nil => intro h; cases h
  | cons z l ih =>
    intro h
    rw [List.countP_cons, List.countP_cons]
    rcases List.mem_cons.1 h with rfl | h
    · have := hmono l
      simp [hxy]
      omega
    · have := ih h
      by_cases hz : z < x
      · simp [hz, hz.trans hxy]
        omega
      · simp [hz]
        split <;> omega

theorem rank_nat {ps : List (ℕ × ℕ)} (r : ℕ → ℚ) (h : ∀ p ∈ ps, r p.1 < r p.2) :
    ∃ ρ : ℕ → ℕ, ∀ p ∈ ps, ρ p.1 < ρ p.2 :=
  ⟨fun n => (ps.map fun p => r p.1).countP (· < r n), fun p hp =>
    countP_lt_of_mem (h p hp) _ (List.mem_map_of_mem (f := fun p : ℕ × ℕ => r p.1) hp)⟩

omit [AddCommMonoid α] in
theorem mem_edge_pairs {es : List (ℕ × ℕ × (α → α))} {p : ℕ × ℕ} :
    p ∈ es.map (fun e => (e.1, e.2.1)) ↔ ∃ e ∈ es, e.1 = p.1 ∧ e.2.1 = p.2 := by
  rw [List.mem_map]
  constructor
  · rintro ⟨e, he, rfl⟩
    exact ⟨e, he, rfl, rfl⟩
  · rintro ⟨e, he, h1, h2⟩
    exact ⟨e, he, by rw [h1, h2]⟩

/-- Flattening keeps the function, and gives a graph with one input and one output. -/
theorem flatten_ok {N : Net α} {s t : ℕ} (hlev : Level N.pairs s t) (hN : N.Nested)
    {es : List (ℕ × ℕ × (α → α))} (hops : N.Ops es) :
    (∀ F, Computes List.sum es F → Computes List.sum (flatten N).edges F) ∧
    (∃ s' t', Level ((flatten N).edges.map fun e => (e.1, e.2.1)) s' t') ∧
    (∀ e ∈ (flatten N).edges, e.1 ∈ (flatten N).nodes ∧ e.2.1 ∈ (flatten N).nodes) ∧
    (∀ w ∈ (flatten N).nodes, ∃ e ∈ (flatten N).edges, w = e.1 ∨ w = e.2.1) := by
  have hnil : ∀ n, spot s t none none [] n = none := by
    intro n
    rw [spot_nil]
    split
    · rfl
    · split <;> rfl
  obtain ⟨m', new, hl⟩ := flattenLoop_ok N N.pairs s t none none [] ⟨[], []⟩ es hlev hN hops
    (fun _ h => h) hlev.nodup (by
      constructor
      · simp
      · intro n c h; rw [hnil] at h; cases h
      · intro n n' c h; rw [hnil] at h; cases h
      · intro p _ a b h; rw [hnil] at h; cases h)
  change Looped s t none none N.pairs es [] ⟨[], []⟩ m' (flatten N) new at hl
  have hE : (flatten N).edges = new := by
    rw [hl.edges]
    simp
  have hfresh := fun w hw => hl.fresh w hw (by simp)
  have htouch : ∀ n c, spot s t none none m' n = some c → ∃ p ∈ N.pairs, n = p.1 ∨ n = p.2 := by
    intro n c h
    rcases hl.touched n c h with h | h
    · rw [hnil] at h; cases h
    · exact h
  obtain ⟨⟨v₀, hv₀⟩, hsno⟩ := hlev.source
  obtain ⟨⟨u₀, hu₀⟩, htno⟩ := hlev.sink
  obtain ⟨s', hs'⟩ := (hl.dom _ hv₀).1
  obtain ⟨t', ht'⟩ := (hl.dom _ hu₀).2
  simp only at hs' ht'
  -- nodes other than the input have incoming edges, nodes other than the output outgoing ones
  have hin : ∀ w ∈ (flatten N).nodes, w = s' ∨ ∃ e ∈ new, e.2.1 = w := by
    intro w hw
    rcases hfresh w hw with ⟨n, h1, p, hp, h2⟩ | h
    · by_cases hns : n = s
      · subst hns
        rw [hs'] at h1
        exact Or.inl (Option.some.inj h1).symm
      · right
        rcases h2 with rfl | rfl
        · obtain ⟨x, hx⟩ := (hlev.sourceOnly p hp).resolve_left hns
          exact hl.inn _ hx w h1
        · exact hl.inn _ hp w h1
    · exact Or.inr h.2
  have hout : ∀ w ∈ (flatten N).nodes, w = t' ∨ ∃ e ∈ new, e.1 = w := by
    intro w hw
    rcases hfresh w hw with ⟨n, h1, p, hp, h2⟩ | h
    · by_cases hnt : n = t
      · subst hnt
        rw [ht'] at h1
        exact Or.inl (Option.some.inj h1).symm
      · right
        rcases h2 with rfl | rfl
        · exact hl.out _ hp w h1
        · obtain ⟨x, hx⟩ := (hlev.sinkOnly p hp).resolve_left hnt
          exact hl.out _ hx w h1
    · exact Or.inr h.1
  have hst : s' ≠ t' := by
    rintro rfl
    have := hl.inj s t s' hs' ht'
    subst this
    exact htno _ hv₀
  refine ⟨?_, ⟨s', t', ?_⟩, ?_, ?_⟩
  · intro F hF x
    obtain ⟨ival, c1, c2, c3⟩ := hF x
    have hival : ∀ n, (∃ u, (u, n) ∈ N.pairs) → ival n = inSum es ival n := by
      rintro n ⟨u, hu⟩
      obtain ⟨f, hf⟩ := (hops.mem u n).1 hu
      rw [c2 _ hf, mergeInputs_sum]
      rfl
    have hsx : ival s = x := by
      obtain ⟨f, hf⟩ := (hops.mem s v₀).1 hv₀
      refine c1 _ hf fun e' he' h => hsno e'.1 ?_
      rw [hops.mem]
      obtain ⟨x, y, z⟩ := e'
      cases h
      exact ⟨z, he'⟩
    have htx : ival t = F x := by
      obtain ⟨f, hf⟩ := (hops.mem u₀ t).1 hu₀
      refine c3 _ hf fun e' he' h => htno e'.2.1 ?_
      rw [hops.mem]
      obtain ⟨x, y, z⟩ := e'
      cases h
      exact ⟨z, he'⟩
    obtain ⟨val', _, l2, l3, l4⟩ := hl.vals ival ival (by
      intro n c _ h; rw [hnil] at h; cases h)
    refine ⟨val', ?_, ?_, ?_⟩
    · intro e he hno
      rw [hE] at he hno
      rcases hin e.1 (hl.ends e he).1 with h | ⟨e', h1, h2⟩
      · rw [h, l2 s s' (Or.inr rfl) hs', hsx]
      · exact absurd h2 (hno e' h1)
    · intro e he
      rw [hE] at he ⊢
      rw [mergeInputs_sum]
      change val' e.2.1 = inSum new val' e.2.1
      by_cases him : ∃ n, spot s t none none m' n = some e.2.1
      · obtain ⟨n, hn⟩ := him
        rw [l2 n _ (Or.inr rfl) hn, l3 n _ hn]
        exact hival n (hl.to_image e he n hn)
      · exact l4 _ (hl.ends e he).2 (by simp) fun n h => him ⟨n, h⟩
    · intro e he hno
      rw [hE] at he hno
      rcases hout e.2.1 (hl.ends e he).2 with h | ⟨e', h1, h2⟩
      · rw [h, l2 t t' (Or.inr rfl) ht', htx]
      · exact absurd h2 (hno e' h1)
  · constructor
    · exact flattenLoop_nodup N _ _ _ _ _ (by simp)
    · obtain ⟨ρ, hρ⟩ := hlev.rank
      obtain ⟨r', _, _, h3⟩ := hl.ranks (fun n => (ρ n : ℚ)) (fun _ => 0)
        (fun p hp => by exact_mod_cast hρ p hp) (by intro n c h; rw [hnil] at h; cases h)
      apply rank_nat r'
      intro p hp
      rw [hE, mem_edge_pairs] at hp
      obtain ⟨e, he, h1, h2⟩ := hp
      rw [← h1, ← h2]
      exact h3 e he
    · constructor
      · obtain ⟨e, he, h1⟩ := hl.out _ hv₀ s' hs'
        refine ⟨e.2.1, ?_⟩
        rw [hE, mem_edge_pairs]
        exact ⟨e, he, h1, rfl⟩
      · intro u hu
        rw [hE, mem_edge_pairs] at hu
        obtain ⟨e, he, _, h2⟩ := hu
        obtain ⟨w, hw⟩ := hl.to_image e he s (by rw [h2]; exact hs')
        exact hsno w hw
    · intro p hp
      rw [hE, mem_edge_pairs] at hp
      obtain ⟨e, he, h1, h2⟩ := hp
      rcases hin e.1 (hl.ends e he).1 with h | ⟨e', h3, h4⟩
      · exact Or.inl (h1 ▸ h)
      · refine Or.inr ⟨e'.1, ?_⟩
        rw [hE, mem_edge_pairs]
        exact ⟨e', h3, rfl, h4.trans h1⟩
    · constructor
      · obtain ⟨e, he, h1⟩ := hl.inn _ hu₀ t' ht'
        refine ⟨e.1, ?_⟩
        rw [hE, mem_edge_pairs]
        exact ⟨e, he, rfl, h1⟩
      · intro v hv
        rw [hE, mem_edge_pairs] at hv
        obtain ⟨e, he, h2, _⟩ := hv
        obtain ⟨w, hw⟩ := hl.from_image e he t (by rw [h2]; exact ht')
        exact htno w hw
    · intro p hp
      rw [hE, mem_edge_pairs] at hp
      obtain ⟨e, he, h1, h2⟩ := hp
      rcases hout e.2.1 (hl.ends e he).2 with h | ⟨e', h3, h4⟩
      · exact Or.inl (h2 ▸ h)
      · refine Or.inr ⟨e'.2.1, ?_⟩
        rw [hE, mem_edge_pairs]
        exact ⟨e', h3, h4.trans h2, rfl⟩
  · rw [hE]
    exact hl.ends
  · intro w hw
    rw [hE]
    rcases hin w hw with rfl | ⟨e, h1, h2⟩
    · rcases hout w hw with h | ⟨e, h1, h2⟩
      · exact absurd h hst
      · exact ⟨e, h1, Or.inl h2.symm⟩
    · exact ⟨e, h1, Or.inr h2.symm⟩

end Verif.Arch
