import Verif.Grammar.CPriorLoop

/-!
# Reading a whole tree of a constrained grammar
-/

namespace Verif.Gram

theorem argSyms_append (a b : List Sym) : argSyms (a ++ b) = argSyms a ++ argSyms b := by
  induction a with
  | nil => rfl
  | cons x a ih => cases x <;> simp [argSyms, ih]

theorem Derives.items_length {ok : Str → List Sym → Prop} {syms : List Sym} {f : Forest}
    (h : Derives ok syms f) : f.items.length = (argSyms syms).length := by
  induction h with
  | nil => rfl
  | leaf _ ih => simpa [Forest.items, argSyms] using ih
  | node _ _ _ _ ih => simp [Forest.items, argSyms, ih]

/-- The conditional probabilities of the specification. -/
abbrev cP (g : CGrammar) (c : FunConstraint) (prob : Str → List Sym → ℚ) :
    Sym → List Str → Str → List Sym → ℚ :=
  fun op before B rhs => condProb g.toGrammar prob (g.excluded c op before B) B rhs

open Classical in
/-- What `current_derivations` holds for the operation with the right hand side `rhs`. -/
noncomputable def slot (g : CGrammar) (rhs : List Sym) (l : List (Str × Forest)) :
    Option (List (Option Str)) :=
  if ∃ B ∈ argSyms rhs, g.NoneAble B then
    entry (argSyms rhs).length (l.map fun x => x.2.opName) else none

theorem slot_nil (g : CGrammar) (rhs : List Sym) : slot g rhs [] = none := by
  unfold slot
  split_ifs
  · exact entry_nil _
  · rfl

theorem slot_full {g : CGrammar} {rhs : List Sym} {l : List (Str × Forest)}
    (h : l.length = (argSyms rhs).length) : slot g rhs l = none := by
  unfold slot
  split_ifs
  · exact entry_full (by simpa using h)
  · rfl

/-- What the lemmas assume. -/
structure Setting (g : CGrammar) (c : FunConstraint) (v : List (Str × List ℚ))
    (prob : Str → List Sym → ℚ) : Prop where
  readable : g.Readable
  nodup : g.prods.Nodup
  prior : g.prior = some v
  lists : g.PriorLists v prob
  remaining : g.Remaining prob
  fn : g.constraints = .fn c
  plain : c.Plain g

/-- The factor of a node whose nonterminal has no none operation. -/
theorem Setting.factor_plain {g : CGrammar} {c : FunConstraint} {v : List (Str × List ℚ)}
    {prob : Str → List Sym → ℚ} (S : Setting g c v prob) {B : Str} {rhs : List Sym}
    (hl : g.Legal B rhs) (hne : rhs ≠ []) (hB : ¬ g.NoneAble B) (stack) (D : Derivs) :
    cFactor g ⟨B, rhs⟩ stack D = some (prob B rhs, D) := by
  have h1 := S.lists ⟨B, rhs⟩ hl
  have h2 := (anyNone_eq (noneOp := g.noneOp) (S.readable.rhs_ne hl hne)).2
    (fun h => hB (noneAble_iff.2 h))
  have hx : (⟨B, rhs⟩ : Production) ∈ g.productions B := mem_productions.2 ⟨hl, rfl⟩
  unfold cFactor
  simp only [S.prior, h1, h2]
  unfold pickPrior
  simp only [List.length_nil, lt_self_iff_false, if_false]
  rw [List.getElem?_map, List.getElem?_eq_getElem (List.idxOf_lt_length_iff.2 hx)]
  simp

/-- The factor of an argument that is closed. -/
theorem Setting.factor {g : CGrammar} {c : FunConstraint} {v : List (Str × List ℚ)}
    {prob : Str → List Sym → ℚ} (S : Setting g c v prob) {A B : Str} {done syms : List Sym}
    (hl : g.Legal A (done ++ .nt B :: syms)) {op : Sym}
    (hop : (done ++ .nt B :: syms).head? = some op) {l : List (Str × Forest)}
    (hlen : l.length = (argSyms done).length)
    (htrees : ∀ x ∈ l, g.Legal x.1 x.2.heads ∧ Derives g.Legal x.2.heads x.2) {kids : Forest}
    (hB : g.Legal B kids.heads) (hne : kids.heads ≠ [])
    (hperm : c.Permits g.noneOp op (l.map fun x => treeText x.1 x.2) B kids)
    (n : ℕ) (stack) {D : Derivs}
    (hD : D (stack.length + 1) = slot g (done ++ .nt B :: syms) l) :
    cFactor g ⟨B, kids.heads⟩ ((cand g.toGrammar A (done ++ [.nt B]), n) :: stack) D =
      some (cP g c prob op (l.map fun x => treeText x.1 x.2) B kids.heads,
        Function.update D (stack.length + 1)
          (slot g (done ++ .nt B :: syms) (l ++ [(B, kids)]))) := by
  have hBm : B ∈ argSyms (done ++ .nt B :: syms) := by
    rw [argSyms_append]; simp [argSyms]
  by_cases hBn : g.NoneAble B
  · have hex : ∃ C ∈ argSyms (done ++ .nt B :: syms), g.NoneAble C := ⟨B, hBm, hBn⟩
    have h1 := S.lists ⟨B, kids.heads⟩ hB
    have h2 := (anyNone_eq (noneOp := g.noneOp) (S.readable.rhs_ne hB hne)).1
      (noneAble_iff.1 hBn)
    obtain ⟨p, ps, hcand, hhead⟩ := cand_head hl hop
    obtain ⟨b, hsay, hb⟩ := hperm
    obtain ⟨x, hx⟩ : ∃ x, kids.heads.head? = some x := by
      cases h : kids.heads with
      | nil => exact absurd h hne
      | cons x _ => exact ⟨x, rfl⟩
    have hopl : ∃ r, done ++ .nt B :: syms = op :: r := by
      cases h : done ++ .nt B :: syms with
      | nil => rw [h] at hop; simp at hop
      | cons y r => rw [h] at hop; simp at hop; exact ⟨r, by rw [hop]⟩
    obtain ⟨r, hr⟩ := hopl
    have hstart := S.plain.places A op r (hr ▸ hl)
    rw [← hr] at hstart
    have hlt : l.length < (argSyms (done ++ .nt B :: syms)).length := by
      rw [argSyms_append, hlen]
      simp [argSyms]
    have hask := S.plain.roots A op r (hr ▸ hl) l htrees
      ((argSyms (done ++ .nt B :: syms)).length - l.length)
    have hDe : D (stack.length + 1) =
        entry (argSyms (done ++ .nt B :: syms)).length (l.map fun x => x.2.opName) := by
      rw [hD]
      unfold slot
      rw [if_pos hex]
    have hq := askConstraint_eq (p := ⟨B, kids.heads⟩) S.fn hx (ns := l.map fun x => x.2.opName)
      hstart (by simpa using hlt) (m := stack.length + 1) hDe (b := b) (by
        obtain ⟨d, hd, _, hb'⟩ := hsay
        rw [hstart] at hd
        obtain rfl := Option.some.inj hd
        rw [List.drop_replicate] at hb'
        simp only [List.length_map, List.map_map, Function.comp_def] at hb' hask ⊢
        rw [hask]
        exact hb')
    unfold cFactor
    simp only [S.prior, h1, h2, hcand, hhead, List.length_cons, hq]
    rw [pick_excluded S.nodup S.remaining hB hsay hb]
    simp only [Option.map_some, cP, Option.some.injEq, Prod.mk.injEq, true_and]
    congr 1
    unfold slot
    rw [if_pos hex, List.map_append]
    simp [Forest.opName, hx]
  · rw [S.factor_plain hB hne hBn]
    have e : cP g c prob op (l.map fun x => treeText x.1 x.2) B kids.heads =
        prob B kids.heads := by
      unfold cP condProb
      rw [excluded_nil hBn, if_pos rfl]
    have hnone : ¬ ∃ C ∈ argSyms (done ++ .nt B :: syms), g.NoneAble C := by
      rintro ⟨C, hC, hCn⟩
      exact hBn (S.plain.same A _ hl C hC B hBm hCn)
    have e2 : ∀ l', slot g (done ++ .nt B :: syms) l' = none := by
      intro l'
      unfold slot
      rw [if_neg hnone]
    rw [e, e2]
    rw [e2] at hD
    rw [← hD, Function.update_eq_self]

theorem Grammar.Readable.ordinary_t {g : Grammar} (hg : g.Readable) {A : Str} {rhs : List Sym}
    (hl : g.Legal A rhs) {s : Str} (hs : .t s ∈ rhs) : s ≠ [] ∧ ∀ c ∈ s, Ordinary c := by
  obtain ⟨h1, h2, h3, h4, h5, h6⟩ := hg.rhs _ hl s hs
  refine ⟨h6, fun c hc => ⟨?_, ?_, ?_⟩⟩
  · rintro (rfl | rfl | rfl)
    · exact h1 hc
    · exact h4 hc
    · exact h5 hc
  · rintro rfl; exact h2 hc
  · rintro rfl; exact h3 hc

theorem Forest.text_next (f : Forest) (b : Str) :
    ∃ c r, f.text ++ ')' :: b = c :: r ∧ (c = ' ' ∨ c = ')') := by
  cases f with
  | nil => exact ⟨_, _, rfl, Or.inr rfl⟩
  | leaf => exact ⟨_, _, rfl, Or.inl rfl⟩
  | node => exact ⟨_, _, rfl, Or.inl rfl⟩

/-- Reading the text of a sequence of trees below a node. -/
theorem Setting.text {g : CGrammar} {c : FunConstraint} {v : List (Str × List ℚ)}
    {prob : Str → List Sym → ℚ} (S : Setting g c v prob) {syms : List Sym} {f : Forest}
    (hd : Derives g.Legal syms f) :
    ∀ (A : Str) (done : List Sym) (l : List (Str × Forest)) (op : Sym),
      g.Legal A (done ++ syms) → (done ++ syms).head? = some op →
      l.length = (argSyms done).length →
      (∀ x ∈ l, g.Legal x.1 x.2.heads ∧ Derives g.Legal x.2.heads x.2) →
      (∀ j B k, f.items[j]? = some (B, k) →
        c.Permits g.noneOp op ((l.map fun x => treeText x.1 x.2) ++ f.argTexts j) B k) →
      (∀ B k, (B, k) ∈ f.items → EveryArgument (c.Permits g.noneOp) B k) →
      ∀ (prev : Option Char), prev ≠ some ' ' →
      ∃ (k : ℕ) (prev' : Option Char), k ≤ f.text.length ∧ prev' ≠ some ' ' ∧
      ∀ (fuel : ℕ) (b : Str) (fs : List ℚ) (stack : List (List Production × ℕ)) (D : Derivs),
        D (stack.length + 1) = slot g (done ++ syms) l →
        (∀ m, stack.length + 1 < m → D m = none) →
        cPriorGo g (fuel + k) ⟨false, prev, f.text ++ ')' :: b, fs,
          (cand g.toGrammar A done, done.length) :: stack, D⟩ =
        cPriorGo g fuel ⟨false, prev', ')' :: b,
          fs ++ f.choices (cP g c prob) op (l.map fun x => treeText x.1 x.2),
          (cand g.toGrammar A (done ++ syms), (done ++ syms).length) :: stack,
          Function.update D (stack.length + 1) (slot g (done ++ syms) (l ++ f.items))⟩ := by
  have hg := S.readable
  induction hd with
  | nil =>
    intro A done l op hl hop hlen htr hperm hev prev hprev
    refine ⟨0, prev, by simp, hprev, fun fuel b fs stack D hD _ => ?_⟩
    simp only [Forest.text, Forest.choices, Forest.items, List.append_nil, List.nil_append,
      Nat.add_zero] at hD ⊢
    rw [← hD, Function.update_eq_self]
  | @leaf s syms f hf ih =>
    intro A done l op hl hop hlen htr hperm hev prev hprev
    obtain ⟨hs, ho⟩ := hg.ordinary_t hl (s := s) (by simp)
    have hl' : g.Legal A ((done ++ [.t s]) ++ syms) := by simpa using hl
    obtain ⟨k, prev', hk, hp', he⟩ := ih A (done ++ [.t s]) l op hl' (by simpa using hop)
      (by rw [argSyms_append]; simpa [argSyms] using hlen) htr hperm hev s.getLast?
      (getLast_ordinary ho)
    refine ⟨k + 2, prev', ?_, hp', ?_⟩
    · have : 1 ≤ s.length := List.length_pos_iff.2 hs
      simp [Forest.text]; omega
    · intro fuel b fs stack D hD hdeep
      have e : (Forest.leaf s f).text ++ ')' :: b = ' ' :: (s ++ (f.text ++ ')' :: b)) := by
        simp [Forest.text]
      have hsym : s ∈ g.symbols := mem_symbols.2 (Or.inr ⟨_, hl, .t s, by simp, rfl⟩)
      have hterm : s ∈ g.terminals := mem_terminals.2 ⟨⟨_, hl, .t s, by simp, rfl⟩, by
        rintro p hp rfl
        exact hg.apart _ hl p hp (by simp)⟩
      have hm : cLongestMatch g.toGrammar (s ++ (f.text ++ ')' :: b)) = some s := by
        obtain ⟨c, r, e, hc⟩ := f.text_next b
        rw [e]
        exact hg.cread hsym hs hc
      have hkeep : keepAt (cand g.toGrammar A done) done.length (· = .t s) =
          some (cand g.toGrammar A (done ++ [.t s])) :=
        keepAt_cand hg hl (by simp)
      rw [e, show fuel + (k + 2) = (fuel + k + 1) + 1 by ring, cPriorGo_space,
        cPriorGo_terminal _ _ _ hs ho hm hterm _ _ _ hkeep]
      have := he fuel b fs stack D (by simpa using hD) hdeep
      simp only [List.length_append, List.length_singleton, List.append_assoc,
        List.singleton_append] at this ⊢
      rw [this]
      rfl
  | @node B rhs kids syms f hok hk hf ihk ihf =>
    intro A done l op hl hop hlen htr hperm hev prev hprev
    have hheads : kids.heads = rhs := hk.heads
    have hev0 : EveryArgument (c.Permits g.noneOp) B kids := hev B kids (by simp [Forest.items])
    rw [everyArgument_iff] at hev0
    obtain ⟨⟨op', hop', hperm'⟩, hev'⟩ := hev0
    have hne : kids.heads ≠ [] := by
      intro h; rw [h] at hop'; simp at hop'
    obtain ⟨hs, ho⟩ := hg.ordinary hok
    have hl' : g.Legal A ((done ++ [.nt B]) ++ syms) := by simpa using hl
    obtain ⟨k1, prev1, hk1, hp1, he1⟩ := ihk B [] [] op' (by simpa using hok)
      (by rw [List.nil_append, ← hheads]; exact hop') rfl (by simp)
      (by simpa using hperm') hev' B.getLast? (getLast_ordinary ho)
    obtain ⟨k2, prev2, hk2, hp2, he2⟩ := ihf A (done ++ [.nt B]) (l ++ [(B, kids)]) op hl'
      (by simpa using hop) (by rw [argSyms_append]; simp [argSyms, hlen])
      (by
        intro x hx
        rcases List.mem_append.1 hx with h | h
        · exact htr x h
        · simp only [List.mem_singleton] at h
          subst h
          exact ⟨by rw [hheads]; exact hok, by rw [hheads]; exact hk⟩)
      (by
        intro j C k hj
        have := hperm (j + 1) C k (by simpa [Forest.items] using hj)
        simpa [Forest.argTexts, Forest.items] using this)
      (fun C k h => hev C k (by simp [Forest.items, h])) (some ')') (by decide)
    refine ⟨k2 + 1 + k1 + 3, prev2, ?_, hp2, ?_⟩
    · have : 1 ≤ B.length := List.length_pos_iff.2 hs
      simp [Forest.text]; omega
    · intro fuel b fs stack D hD hdeep
      have e : (Forest.node B kids f).text ++ ')' :: b =
          ' ' :: '(' :: (B ++ (kids.text ++ ')' :: (f.text ++ ')' :: b))) := by
        simp [Forest.text]
      have hsym : B ∈ g.symbols := mem_symbols.2 (Or.inl ⟨_, hok, rfl⟩)
      have hterm : B ∉ g.terminals := fun h => (mem_terminals.1 h).2 _ hok rfl
      have hm : cLongestMatch g.toGrammar (B ++ (kids.text ++ ')' :: (f.text ++ ')' :: b))) =
          some B := by
        obtain ⟨c, r, e, hc⟩ := kids.text_next (f.text ++ ')' :: b)
        rw [e]
        exact hg.cread hsym hs hc
      have hkeep : keepAt (cand g.toGrammar A done) done.length (fun x => x.str = B) =
          some (cand g.toGrammar A (done ++ [.nt B])) :=
        keepAt_cand hg hl (by
          intro p hp y hy
          simp only [decide_eq_true_eq]
          constructor
          · intro h
            rcases Sym.eq_of_str h with rfl | rfl
            · rfl
            · exact absurd hy (hg.apart p hp _ hok)
          · rintro rfl; rfl)
      have hhead : (B ++ (kids.text ++ ')' :: (f.text ++ ')' :: b))).head? ≠ some ' ' := by
        cases B with
        | nil => exact absurd rfl hs
        | cons c cs =>
          have := (ho c (by simp)).1
          simp only [List.cons_append, List.head?_cons, ne_eq, Option.some.injEq]
          tauto
      rw [e, show fuel + (k2 + 1 + k1 + 3) = (fuel + k2 + 1 + k1 + 2) + 1 by ring, cPriorGo_space,
        show fuel + k2 + 1 + k1 + 2 = (fuel + k2 + 1 + k1 + 1) + 1 by ring,
        cPriorGo_open _ _ _ _ _ _ _ _ (by simp) (Or.inr hhead),
        cPriorGo_nonterminal (fuel + k2 + 1 + k1) _ _ hs ho hm hterm fs D
          (Or.inr ⟨_, _, _, _, rfl, rfl, hkeep⟩)]
      have h1 := he1 (fuel + k2 + 1) (f.text ++ ')' :: b) fs
        ((cand g.toGrammar A (done ++ [.nt B]), done.length + 1) :: stack) D
        (by rw [slot_nil]; exact hdeep _ (by simp))
        (fun m hm => hdeep m (by simp only [List.length_cons] at hm; omega))
      have hDd : D (stack.length + 1 + 1) = none := hdeep _ (by omega)
      rw [cand_nil] at h1
      simp only [List.length_nil, List.nil_append, List.length_cons, List.map_nil] at h1
      rw [slot_full hk.items_length, ← hDd, Function.update_eq_self] at h1
      rw [h1]
      obtain ⟨ps, hps⟩ := cand_full hg hok
      have hfac := S.factor hl hop hlen htr (kids := kids) (by rw [hheads]; exact hok) hne
        (by simpa [Forest.argTexts] using hperm 0 B kids (by simp [Forest.items]))
        (done.length + 1) stack hD
      rw [hheads] at hfac
      rw [hps, cPriorGo_close (fuel + k2) false hp1 _ _ _ _ hfac]
      have h2 := he2 fuel b (fs ++ kids.choices (cP g c prob) op' [] ++
        [cP g c prob op (l.map fun x => treeText x.1 x.2) B rhs]) stack
        (Function.update D (stack.length + 1)
          (slot g (done ++ .nt B :: syms) (l ++ [(B, kids)])))
        (by simp)
        (by
          intro m hm
          rw [Function.update_of_ne (by omega)]
          exact hdeep m hm)
      simp only [List.length_append, List.length_singleton, List.append_assoc,
        List.singleton_append, Function.update_idem, List.map_append, List.map_cons,
        List.map_nil] at h2 ⊢
      rw [h2]
      have hch : (Forest.node B kids f).choices (cP g c prob) op (l.map fun x => treeText x.1 x.2) =
          kids.choices (cP g c prob) op' [] ++
            cP g c prob op (l.map fun x => treeText x.1 x.2) B rhs ::
            f.choices (cP g c prob) op ((l.map fun x => treeText x.1 x.2) ++ [treeText B kids]) := by
        rw [Forest.choices, hheads]
        cases rhs with
        | nil => exact absurd hheads hne
        | cons y r =>
          rw [hheads] at hop'
          simp only [List.head?_cons, Option.some.injEq] at hop'
          subst hop'
          rfl
      rw [hch]
      rfl

end Verif.Gram
