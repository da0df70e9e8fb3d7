import Verif.Grammar.TextLemmas

/-!
# Lemmas on sampling
-/

namespace Verif.Gram

/-- The productions a sampler may use: with a prior, only those whose probability is not zero. -/
def Allowed (g : Grammar) (userPriors : Bool) (A : Str) (rhs : List Sym) : Prop :=
  ∃ i : ℕ, (g.productions A)[i]? = some ⟨A, rhs⟩ ∧
    (userPriors = true → ∀ p, g.prior = some p →
      ∃ ps q, lookup A p = some ps ∧ (ps.length = (g.productions A).length ∧ ps.all (0 ≤ ·)) ∧
        ps[i]? = some q ∧ q ≠ 0)

theorem Allowed.legal {g : Grammar} {up A rhs} (h : Allowed g up A rhs) : g.Legal A rhs := by
  obtain ⟨i, h, _⟩ := h
  have := List.mem_of_getElem? h
  unfold Grammar.productions at this
  exact (List.mem_filter.1 this).1

theorem productions_lhs {g : Grammar} {A : Str} {i : ℕ} {p : Production}
    (h : (g.productions A)[i]? = some p) : p.lhs = A := by
  have := List.mem_of_getElem? h
  unfold Grammar.productions at this
  simpa using (List.mem_filter.1 this).2

theorem Derives.mono {ok ok' : Str → List Sym → Prop} (h : ∀ A rhs, ok A rhs → ok' A rhs)
    {syms f} (hd : Derives ok syms f) : Derives ok' syms f := by
  induction hd with
  | nil => exact .nil
  | leaf _ ih => exact .leaf ih
  | node ho _ _ i1 i2 => exact .node (h _ _ ho) i1 i2

theorem IsTreeOf.mono {ok ok' : Str → List Sym → Prop} (h : ∀ A rhs, ok A rhs → ok' A rhs)
    {A s} (hd : IsTreeOf ok A s) : IsTreeOf ok' A s := by
  obtain ⟨rhs, kids, h1, h2, h3⟩ := hd
  exact ⟨rhs, kids, h _ _ h1, h2.mono h, h3⟩

/-- Concatenation of sequences of trees. -/
def Forest.append : Forest → Forest → Forest
  | .nil, g => g
  | .leaf s r, g => .leaf s (append r g)
  | .node A k r, g => .node A k (append r g)

theorem text_append (f g : Forest) : (f.append g).text = f.text ++ g.text := by
  induction f with
  | nil => rfl
  | leaf s r ih => simp [Forest.append, Forest.text, ih]
  | node A k r _ ih => simp [Forest.append, Forest.text, ih]

theorem items_append (f g : Forest) : (f.append g).items = f.items ++ g.items := by
  induction f with
  | nil => rfl
  | leaf s r ih => simpa [Forest.append, Forest.items] using ih
  | node A k r _ ih => simp [Forest.append, Forest.items, ih]

/-- What the text of a tree (without the closing bracket) stands for. -/
def Good (g : Grammar) (up : Bool) (A s : Str) (kids : Forest) : Prop :=
  (∃ rhs, Allowed g up A rhs ∧ Derives (Allowed g up) rhs kids) ∧ s = '(' :: A ++ kids.text ∧
    kids.SiblingsAgree

/-- Every entry of the cache is the text of the tree `M` gives. -/
def CacheOk (g : Grammar) (up : Bool) (M : Str → Option Forest) (c : Cache) : Prop :=
  ∀ A s, lookup A c = some s → ∃ kids, M A = some kids ∧ Good g up A s kids

/-- What was in the cache stays there. -/
def Keep (M : Str → Option Forest) (c : Cache) (M' : Str → Option Forest) (c' : Cache) : Prop :=
  ∀ A s, lookup A c = some s → lookup A c' = some s ∧ M' A = M A

theorem Keep.trans {M c M' c' M'' c''} (h : Keep M c M' c') (h' : Keep M' c' M'' c'') :
    Keep M c M'' c'' := fun A s hs => by
  obtain ⟨h1, h2⟩ := h A s hs
  obtain ⟨h3, h4⟩ := h' A s h1
  exact ⟨h3, h4.trans h2⟩

/-- The recursive call returns a tree and keeps the cache. -/
def RecOk (g : Grammar) (up : Bool)
    (rec : Str → Cache → List ℕ → Option (Str × Cache × List ℕ)) : Prop :=
  ∀ A M c ds s c' ds', CacheOk g up M c → rec A c ds = some (s, c', ds') →
    ∃ kids M', Good g up A s kids ∧ CacheOk g up M' c' ∧ Keep M c M' c'

theorem expand_ok {g : Grammar} {up : Bool} {rec} (hrec : RecOk g up rec) (syms : List Sym) :
    ∀ (tree : Str) (M : Str → Option Forest) (c : Cache) (ds : List ℕ) s c' ds',
      CacheOk g up M c → expand rec syms tree c ds = some (s, c', ds') →
      ∃ f M', Derives (Allowed g up) syms f ∧ s = tree ++ f.text ∧ f.SiblingsAgree ∧
        CacheOk g up M' c' ∧ Keep M c M' c' ∧
        ∀ A k, (A, k) ∈ f.items → ∃ t, lookup A c' = some t ∧ M' A = some k := by
  induction syms with
  | nil =>
    intro tree M c ds s c' ds' hc h
    simp only [expand, Option.some.injEq, Prod.mk.injEq] at h
    obtain ⟨rfl, rfl, rfl⟩ := h
    exact ⟨.nil, M, .nil, by simp [Forest.text], trivial, hc, fun A s h => ⟨h, rfl⟩,
      by simp [Forest.items]⟩
  | cons sym syms ih =>
    intro tree M c ds s c' ds' hc h
    cases sym with
    | t w =>
      rw [expand] at h
      obtain ⟨f, M', h1, h2, h3, h4, h5, h6⟩ := ih _ M c ds s c' ds' hc h
      exact ⟨.leaf w f, M', .leaf h1, by simp [h2, Forest.text], h3, h4, h5, h6⟩
    | nt A =>
      rw [expand] at h
      split at h
      · rename_i cached hl
        obtain ⟨kids, hM, ⟨rhs, ha, hd⟩, htext, hsib⟩ := hc A cached hl
        obtain ⟨f, M', h1, h2, h3, h4, h5, h6⟩ := ih _ M c ds s c' ds' hc h
        refine ⟨.node A kids f, M', .node ha hd h1, by simp [h2, htext, Forest.text],
          ⟨hsib, ?_, h3⟩, h4, h5, ?_⟩
        · intro k hk
          obtain ⟨_, _, hk'⟩ := h6 A k hk
          rw [(h5 A _ hl).2, hM] at hk'
          exact (Option.some.inj hk').symm
        · intro B k hk
          rcases List.mem_cons.1 hk with e | hk
          · obtain ⟨rfl, rfl⟩ := Prod.mk.inj e
            exact ⟨cached, (h5 B _ hl).1, by rw [(h5 B _ hl).2, hM]⟩
          · exact h6 B k hk
      · rename_i hl
        split at h
        · simp at h
        · rename_i s1 c1 ds1 hr
          obtain ⟨kids, M1, hg, hc1, hk1⟩ := hrec A M c ds s1 c1 ds1 hc hr
          have hg' := hg
          obtain ⟨⟨rhs, ha, hd⟩, htext, hsib⟩ := hg
          let M2 : Str → Option Forest := fun B => if B = A then some kids else M1 B
          have hc2 : CacheOk g up M2 ((A, s1) :: c1) := by
            intro B t ht
            by_cases hB : B = A
            · subst hB
              simp only [lookup, if_true, Option.some.injEq] at ht
              subst ht
              exact ⟨kids, by simp [M2], hg'⟩
            · simp only [lookup, if_neg (Ne.symm hB)] at ht
              obtain ⟨k, hk, hgk⟩ := hc1 B t ht
              exact ⟨k, by simp [M2, hB, hk], hgk⟩
          have hk2 : Keep M c M2 ((A, s1) :: c1) := by
            intro B t ht
            have hB : B ≠ A := by rintro rfl; rw [hl] at ht; simp at ht
            obtain ⟨e1, e2⟩ := hk1 B t ht
            exact ⟨by simp [lookup, Ne.symm hB, e1], by simp [M2, hB, e2]⟩
          have hl2 : lookup A ((A, s1) :: c1) = some s1 := by simp [lookup]
          have hM2 : M2 A = some kids := by simp [M2]
          obtain ⟨f, M', h1, h2, h3, h4, h5, h6⟩ := ih _ M2 _ ds1 s c' ds' hc2 h
          refine ⟨.node A kids f, M', .node ha hd h1, by simp [h2, htext, Forest.text],
            ⟨hsib, ?_, h3⟩, h4, hk2.trans h5, ?_⟩
          · intro k hk
            obtain ⟨_, _, hk'⟩ := h6 A k hk
            rw [(h5 A _ hl2).2, hM2] at hk'
            exact (Option.some.inj hk').symm
          · intro B k hk
            rcases List.mem_cons.1 hk with e | hk
            · obtain ⟨rfl, rfl⟩ := Prod.mk.inj e
              exact ⟨s1, (h5 B _ hl2).1, by rw [(h5 B _ hl2).2, hM2]⟩
            · exact h6 B k hk

theorem choice_lt {n : ℕ} {p : Option (List ℚ)} {ds ds' : List ℕ} {i : ℕ}
    (h : choice n p ds = some (i, ds')) : i < n ∧ ds = i :: ds' ∧
      ∀ ps, p = some ps → (ps.length = n ∧ ps.all (0 ≤ ·)) ∧ ∃ q, ps[i]? = some q ∧ q ≠ 0 := by
  cases ds with
  | nil => simp [choice] at h
  | cons d ds =>
    simp only [choice] at h
    cases p with
    | none =>
      simp only at h
      split_ifs at h with hd
      simp only [Option.some.injEq, Prod.mk.injEq] at h
      obtain ⟨rfl, rfl⟩ := h
      exact ⟨hd, rfl, by simp⟩
    | some ps =>
      simp only at h
      split_ifs at h with hl
      split at h
      · rename_i q hq
        split_ifs at h with h0
        simp only [Option.some.injEq, Prod.mk.injEq] at h
        obtain ⟨rfl, rfl⟩ := h
        refine ⟨?_, rfl, ?_⟩
        · rw [← hl.1]; exact (List.getElem?_eq_some_iff.1 hq).1
        · intro ps' e
          obtain rfl := Option.some.inj e
          exact ⟨hl, q, hq, h0⟩
      · simp at h

theorem samplerRec_ok (g : Grammar) (up : Bool) (fuel : ℕ) : RecOk g up (samplerRec g up fuel) := by
  induction fuel with
  | zero => intro A M c ds s c' ds' _ h; simp [samplerRec] at h
  | succ fuel ih =>
    intro A M c ds s c' ds' hc h
    simp only [samplerRec] at h
    split_ifs at h with h0
    split at h
    · simp at h
    · rename_i p hp
      split at h
      · simp at h
      · rename_i i ds1 hch
        split at h
        · simp at h
        · rename_i prod hprod
          obtain ⟨hi, _, hps⟩ := choice_lt hch
          obtain ⟨f, M', h1, h2, h3, h4, h5, _⟩ := expand_ok ih _ _ M c ds1 s c' ds' hc h
          have hl := productions_lhs hprod
          refine ⟨f, M', ⟨⟨prod.rhs, ⟨i, ?_, ?_⟩, h1⟩, by simpa using h2, h3⟩, h4, h5⟩
          · rw [hprod, ← hl]
          · rintro rfl pr hpr
            unfold probsFor at hp
            rw [hpr] at hp
            simp only [if_true, Option.map_eq_some_iff] at hp
            obtain ⟨ps, hlk, rfl⟩ := hp
            obtain ⟨e1, q, e2, e3⟩ := hps ps rfl
            exact ⟨ps, q, hlk, e1, e2, e3⟩

theorem sampleOne_ok {g : Grammar} {up : Bool} {fuel : ℕ} {A : Str} {ds ds' : List ℕ} {s : Str}
    (h : sampleOne g up fuel A ds = some (s, ds')) :
    ∃ rhs kids, Allowed g up A rhs ∧ Derives (Allowed g up) rhs kids ∧ s = treeText A kids ∧
      kids.SiblingsAgree := by
  unfold sampleOne at h
  split at h
  · simp at h
  · rename_i s0 c0 ds0 hr
    simp only [Option.some.injEq, Prod.mk.injEq] at h
    obtain ⟨rfl, rfl⟩ := h
    obtain ⟨kids, _, ⟨⟨rhs, ha, hd⟩, ht, hs⟩, _⟩ :=
      samplerRec_ok g up fuel A (fun _ => none) [] ds s0 c0 ds0 (by intro A s h; simp [lookup] at h) hr
    exact ⟨rhs, kids, ha, hd, by rw [ht]; rfl, hs⟩

/-! ### Every uniform tree can be sampled -/

/-- The depth of a forest. -/
def Forest.depth : Forest → ℕ
  | .nil => 0
  | .leaf _ r => r.depth
  | .node _ k r => max (k.depth + 1) r.depth

theorem allowed_draw {g : Grammar} {up : Bool} {A : Str} {rhs : List Sym} (h : Allowed g up A rhs) :
    ∃ i p, (g.productions A).length ≠ 0 ∧ probsFor g up A = some p ∧
      (∀ ds, choice (g.productions A).length p (i :: ds) = some (i, ds)) ∧
      (g.productions A)[i]? = some ⟨A, rhs⟩ := by
  obtain ⟨i, h1, h2⟩ := h
  have hi := (List.getElem?_eq_some_iff.1 h1).1
  by_cases hup : up = true ∧ ∃ p, g.prior = some p
  · obtain ⟨rfl, p, hp⟩ := hup
    obtain ⟨ps, q, h3, h4, h5, h6⟩ := h2 rfl p hp
    refine ⟨i, some ps, by omega, by simp [probsFor, hp, h3], ?_, h1⟩
    intro ds
    simp only [choice, if_pos h4, h5, h6, if_false]
  · refine ⟨i, none, by omega, ?_, ?_, h1⟩
    · unfold probsFor
      cases up with
      | false => rfl
      | true =>
        cases hp : g.prior with
        | none => rfl
        | some p => exact absurd ⟨rfl, p, hp⟩ hup
    · intro ds; simp [choice, hi]

/-- The entries of the cache agree with the trees of the forest. -/
def Agrees (c : Cache) (f : Forest) : Prop :=
  ∀ A s k, lookup A c = some s → (A, k) ∈ f.nodes → s = '(' :: A ++ k.text

theorem sample_complete (g : Grammar) (up : Bool) (fuel : ℕ) :
    (∀ A rhs kids c, Allowed g up A rhs → Derives (Allowed g up) rhs kids → kids.depth < fuel →
      kids.Uniform → Agrees c kids → ∃ ds₀ c', (∀ ds, samplerRec g up fuel A c (ds₀ ++ ds) =
        some ('(' :: A ++ kids.text, c', ds)) ∧
        ∀ B s, lookup B c' = some s → lookup B c = some s ∨
          ∃ k, (B, k) ∈ kids.nodes ∧ s = '(' :: B ++ k.text) := by
  induction fuel with
  | zero => intro A rhs kids c _ _ h; omega
  | succ fuel ih =>
    have hexp : ∀ (syms : List Sym) (f : Forest) (tree : Str) (c : Cache),
        Derives (Allowed g up) syms f → f.depth ≤ fuel → f.Uniform → Agrees c f →
        ∃ ds₀ c', (∀ ds, expand (samplerRec g up fuel) syms tree c (ds₀ ++ ds) =
          some (tree ++ f.text, c', ds)) ∧
          ∀ B s, lookup B c' = some s → lookup B c = some s ∨
            ∃ k, (B, k) ∈ f.nodes ∧ s = '(' :: B ++ k.text := by
      intro syms
      induction syms with
      | nil =>
        intro f tree c hd _ _ _
        cases hd
        exact ⟨[], c, by simp [expand, Forest.text], fun B s h => Or.inl h⟩
      | cons sym syms ihs =>
        intro f tree c hd hdep hu ha
        cases hd with
        | leaf hd =>
          rename_i w f
          obtain ⟨ds₀, c', h1, h2⟩ := ihs f (tree ++ [' '] ++ w) c hd (by simpa [Forest.depth] using hdep)
            hu ha
          refine ⟨ds₀, c', ?_, h2⟩
          intro ds
          rw [expand, h1]; simp [Forest.text]
        | node ho hk hr =>
          rename_i A rhs kids f
          obtain ⟨hu1, hu2, hu3⟩ := hu
          simp only [Forest.depth, max_le_iff] at hdep
          cases hl : lookup A c with
          | some cached =>
            have hcached := ha A cached kids hl (by simp [Forest.nodes])
            obtain ⟨ds₀, c', h1, h2⟩ := ihs f (tree ++ [' '] ++ cached ++ [')']) c hr hdep.2 hu3
              (fun B s k h h' => ha B s k h (by simp [Forest.nodes, h']))
            refine ⟨ds₀, c', ?_, ?_⟩
            · intro ds
              rw [expand]
              simp only [hl]
              rw [h1]; simp [Forest.text, hcached]
            · intro B s h
              rcases h2 B s h with h | ⟨k, h, h'⟩
              · exact Or.inl h
              · exact Or.inr ⟨k, by simp [Forest.nodes, h], h'⟩
          | none =>
            obtain ⟨ds₁, c₁, h1, h2⟩ := ih A rhs kids c ho hk (by omega) hu2
              (fun B s k h h' => ha B s k h (by simp [Forest.nodes, h']))
            have ha' : Agrees ((A, '(' :: A ++ kids.text) :: c₁) f := by
              intro B s k h hk'
              by_cases hB : B = A
              · subst hB
                simp only [lookup, if_true, Option.some.injEq] at h
                rw [hu1 B kids k (Or.inl rfl) hk', ← h]
              · simp only [lookup, if_neg (Ne.symm hB)] at h
                rcases h2 B s h with h | ⟨k', h, h'⟩
                · exact ha B s k h (by simp [Forest.nodes, hk'])
                · rw [hu1 B k' k (Or.inr h) hk', h']
            obtain ⟨ds₂, c', h3, h4⟩ := ihs f (tree ++ [' '] ++ ('(' :: A ++ kids.text) ++ [')']) _ hr
              hdep.2 hu3 ha'
            refine ⟨ds₁ ++ ds₂, c', ?_, ?_⟩
            · intro ds
              rw [expand]
              simp only [hl]
              rw [List.append_assoc, h1]
              simp only
              rw [h3]; simp [Forest.text]
            · intro B s h
              rcases h4 B s h with h | ⟨k, h, h'⟩
              · by_cases hB : B = A
                · subst hB
                  simp only [lookup, if_true, Option.some.injEq] at h
                  exact Or.inr ⟨kids, by simp [Forest.nodes], h.symm⟩
                · simp only [lookup, if_neg (Ne.symm hB)] at h
                  rcases h2 B s h with h | ⟨k', h, h'⟩
                  · exact Or.inl h
                  · exact Or.inr ⟨k', by simp [Forest.nodes, h], h'⟩
              · exact Or.inr ⟨k, by simp [Forest.nodes, h], h'⟩
    intro A rhs kids c ha hd hdep hu hag
    obtain ⟨i, p, h1, h2, h3, h4⟩ := allowed_draw ha
    obtain ⟨ds₀, c', h5, h6⟩ := hexp rhs kids ('(' :: A) c hd (by omega) hu hag
    refine ⟨i :: ds₀, c', ?_, h6⟩
    intro ds
    rw [samplerRec]
    simp only [h1, if_false, h2, List.cons_append, h3, h4]
    rw [h5]; rfl

end Verif.Gram
