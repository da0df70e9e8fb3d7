import Verif.Grammar.PriorModel
import Verif.Grammar.Cases
import Mathlib.Data.List.Infix

/-!
# The prior probability of an architecture (C95)
-/

namespace Verif.Gram

/-! ## Reading one symbol -/

theorem mem_symbols {g : Grammar} {s : Str} :
    s ∈ g.symbols ↔ (∃ p ∈ g.prods, p.lhs = s) ∨ ∃ p ∈ g.prods, ∃ x ∈ p.rhs, x.str = s := by
  unfold Grammar.symbols Grammar.terminals Grammar.nonterminals Grammar.lhss
  simp only [List.mem_append, List.mem_dedup, List.mem_map, List.mem_filter, List.mem_flatMap,
    decide_eq_true_eq]
  constructor
  · rintro (h | ⟨⟨x, ⟨p, hp, hx⟩, rfl⟩, _⟩)
    · exact Or.inl h
    · exact Or.inr ⟨p, hp, x, hx, rfl⟩
  · rintro (h | ⟨p, hp, x, hx, rfl⟩)
    · exact Or.inl h
    · by_cases h : ∃ a ∈ g.prods, a.lhs = x.str
      · exact Or.inl h
      · exact Or.inr ⟨⟨x, ⟨p, hp, hx⟩, rfl⟩, h⟩

theorem Sym.eq_of_str {x : Sym} {s : Str} (h : x.str = s) : x = .nt s ∨ x = .t s := by
  cases x <;> simp [Sym.str] at h <;> simp [h]

theorem mem_terminals {g : Grammar} {s : Str} :
    s ∈ g.terminals ↔ (∃ p ∈ g.prods, ∃ x ∈ p.rhs, x.str = s) ∧ ∀ p ∈ g.prods, p.lhs ≠ s := by
  unfold Grammar.terminals Grammar.nonterminals Grammar.lhss
  simp only [List.mem_dedup, List.mem_map, List.mem_filter, List.mem_flatMap, decide_eq_true_eq,
    not_exists, not_and]
  constructor
  · rintro ⟨⟨x, ⟨p, hp, hx⟩, rfl⟩, h⟩
    exact ⟨⟨p, hp, x, hx, rfl⟩, h⟩
  · rintro ⟨⟨p, hp, x, hx, rfl⟩, h⟩
    exact ⟨⟨x, ⟨p, hp, hx⟩, rfl⟩, h⟩

/-- In front of a character that is in no prefix of the text the symbol itself is found. -/
theorem longestMatch_eq {g : Grammar} {s b : Str} {c : Char} (hs : s ∈ g.symbols)
    (hc : ∀ t ∈ g.symbols, t <+: s ++ c :: b → c ∉ t) :
    longestMatch g (s ++ c :: b) = some s := by
  unfold longestMatch
  have : Std.Total (fun a b : Str => b.length ≤ a.length) := ⟨fun a b => le_total _ _⟩
  have : IsTrans Str (fun a b => b.length ≤ a.length) := ⟨fun a b c h h' => le_trans h' h⟩
  have hsort := List.pairwise_insertionSort (fun a b : Str => b.length ≤ a.length) g.symbols
  have hperm := List.perm_insertionSort (fun a b : Str => b.length ≤ a.length) g.symbols
  generalize g.symbols.insertionSort (fun a b => b.length ≤ a.length) = l at hsort hperm
  have key : ∀ t ∈ g.symbols, t <+: s ++ c :: b → t <+: s := by
    intro t ht hp
    rcases le_or_gt t.length s.length with h | h
    · exact List.prefix_of_prefix_length_le hp (List.prefix_append _ _) h
    · exfalso
      have h2 : s ++ [c] <+: t := by
        refine List.prefix_of_prefix_length_le (l₃ := s ++ c :: b) ?_ hp (by simp; omega)
        exact ⟨b, by simp⟩
      exact hc t ht hp (h2.subset (by simp))
  rw [List.find?_eq_some_iff_append]
  have hmem : s ∈ l := hperm.mem_iff.2 hs
  obtain ⟨as, bs, e, hn⟩ := List.eq_append_cons_of_mem hmem
  refine ⟨by simp [List.isPrefixOf_iff_prefix], as, bs, e, ?_⟩
  intro a ha
  have ha' : a ∈ g.symbols := hperm.mem_iff.1 (by rw [e]; simp [ha])
  have hlen : s.length ≤ a.length := by
    rw [e, List.pairwise_append] at hsort
    simpa using hsort.2.2 a ha s (by simp)
  simp only [Bool.not_eq_true', ← Bool.not_eq_true, List.isPrefixOf_iff_prefix]
  intro hp
  have h1 := key a ha' hp
  have : a = s := h1.eq_of_length_le hlen
  exact hn (this ▸ ha)

/-- A symbol of the grammar in front of a space or a closing bracket is read as a whole. -/
theorem Grammar.Readable.read {g : Grammar} (hg : g.Readable)
    {s b : Str} {c : Char}
    (hs : s ∈ g.symbols) (hc : c = ' ' ∨ c = ')') :
    longestMatch g (s ++ c :: b) = some s := by
  refine longestMatch_eq hs ?_
  intro t ht _
  have : ' ' ∉ t ∧ ')' ∉ t := by
    rcases mem_symbols.1 ht with ⟨p, hp, rfl⟩ | ⟨p, hp, x, hx, rfl⟩
    · exact ⟨(hg.lhs p hp).1, (hg.lhs p hp).2.2.1⟩
    · cases x with
      | nt B =>
        obtain ⟨q, hq, rfl⟩ := hg.defined p hp B hx
        exact ⟨(hg.lhs q hq).1, (hg.lhs q hq).2.2.1⟩
      | t s => exact ⟨(hg.rhs p hp s hx).1, (hg.rhs p hp s hx).2.2.1⟩
  rcases hc with rfl | rfl
  · exact this.1
  · exact this.2

/-! ## The candidates for the production of a node -/

/-- The productions of `A` whose right hand side begins with the symbols read so far. -/
def cand (g : Grammar) (A : Str) (done : List Sym) : List Production :=
  (g.productions A).filter (fun p => decide (done <+: p.rhs))

theorem cand_nil (g : Grammar) (A : Str) : cand g A [] = g.productions A := by
  unfold cand
  rw [List.filter_eq_self]
  simp

theorem mem_productions {g : Grammar} {A : Str} {p : Production} :
    p ∈ g.productions A ↔ p ∈ g.prods ∧ p.lhs = A := by
  unfold Grammar.productions
  rw [List.mem_filter]
  simp

theorem keepAt_cand {g : Grammar} (hg : g.Readable) {A : Str} {done rest : List Sym} {x : Sym}
    (hl : g.Legal A (done ++ x :: rest)) {ok : Sym → Bool}
    (hok : ∀ p ∈ g.prods, ∀ y ∈ p.rhs, ok y = true ↔ y = x) :
    keepAt (cand g A done) done.length ok = some (cand g A (done ++ [x])) := by
  unfold keepAt
  rw [if_pos]
  · congr 1
    unfold cand
    rw [List.filter_filter]
    apply List.filter_congr
    intro p hp
    have hp' := (mem_productions.1 hp).1
    by_cases h1 : done <+: p.rhs
    · obtain ⟨r, hr⟩ := h1
      have h2 : p.rhs[done.length]? = r.head? := by
        rw [← hr, List.getElem?_append_right (by omega)]
        cases r <;> simp
      rw [h2]
      cases r with
      | nil =>
        have : ¬ done ++ [x] <+: p.rhs := by
          intro h
          have := h.length_le
          rw [← hr] at this
          simp at this
        simp [this]
      | cons y r =>
        have h3 : done ++ [x] <+: p.rhs ↔ y = x := by
          rw [← hr, List.prefix_append_right_inj]
          simp [List.cons_prefix_cons, eq_comm]
        have h4 := hok p hp' y (by rw [← hr]; simp)
        simp only [List.head?_cons, h3]
        rw [Bool.eq_iff_iff]
        simp only [Bool.and_eq_true, decide_eq_true_eq, h4]
        exact ⟨fun h => h.1, fun h => ⟨h, ⟨_, hr⟩⟩⟩
    · have : ¬ done ++ [x] <+: p.rhs := fun h => h1 ((List.prefix_append _ _).trans h)
      simp [h1, this]
  · rw [List.all_eq_true]
    intro p hp
    unfold cand at hp
    rw [List.mem_filter, mem_productions] at hp
    obtain ⟨⟨hp1, hp2⟩, hp3⟩ := hp
    have hp3 : done <+: p.rhs := by simpa using hp3
    simp only [decide_eq_true_eq]
    rcases Nat.lt_or_ge done.length p.rhs.length with h | h
    · exact h
    · exfalso
      have e : done = p.rhs := hp3.eq_of_length_le h
      have := hg.prefixFree p hp1 ⟨A, done ++ x :: rest⟩ hl hp2 (by rw [← e]; exact ⟨_, rfl⟩)
      rw [← e] at this
      simpa using congrArg List.length this

/-- When all symbols are read, the first candidate is the production used. -/
theorem cand_full {g : Grammar} (hg : g.Readable) {A : Str} {rhs : List Sym}
    (hl : g.Legal A rhs) : ∃ ps, cand g A rhs = ⟨A, rhs⟩ :: ps := by
  have hm : (⟨A, rhs⟩ : Production) ∈ cand g A rhs := by
    unfold cand
    rw [List.mem_filter, mem_productions]
    exact ⟨⟨hl, rfl⟩, by simp⟩
  cases h : cand g A rhs with
  | nil => rw [h] at hm; simp at hm
  | cons p ps =>
    have hp : p ∈ cand g A rhs := by rw [h]; simp
    unfold cand at hp
    rw [List.mem_filter, mem_productions] at hp
    obtain ⟨⟨hp1, hp2⟩, hp3⟩ := hp
    have := hg.prefixFree ⟨A, rhs⟩ hl p hp1 hp2.symm (by simpa using hp3)
    obtain ⟨l, r⟩ := p
    simp only at hp2 this
    subst hp2 this
    exact ⟨ps, rfl⟩

theorem factor_eq {g : Grammar} {v : List (Str × List ℚ)} (hv : g.prior = some v)
    {prob : Str → List Sym → ℚ} (hprob : g.PriorIs v prob) {A : Str} {rhs : List Sym}
    (hl : g.Legal A rhs) : factor g false ⟨A, rhs⟩ = some (prob A rhs) := by
  have hm : (⟨A, rhs⟩ : Production) ∈ g.productions A := mem_productions.2 ⟨hl, rfl⟩
  have hi : (g.productions A)[(g.productions A).idxOf ⟨A, rhs⟩]? = some ⟨A, rhs⟩ := by
    rw [List.getElem?_eq_getElem (List.idxOf_lt_length_iff.2 hm)]
    simp
  obtain ⟨ps, h1, h2⟩ := hprob A _ rhs hi
  unfold factor
  simp only [Bool.false_eq_true, if_false, hv, h1, h2]

/-! ## The loop -/

/-- The loop after one more round. -/
theorem priorGo_step {g : Grammar} {log : Bool} {fuel : ℕ} {st st' : PSt} {c : Char} {cs : Str}
    (hr : st.rest = c :: cs) (h : priorStep g log st c cs = some st') :
    priorGo g log (fuel + 1) st = priorGo g log fuel st' := by
  simp only [priorGo, hr, h]

theorem priorGo_space (g : Grammar) (log : Bool) (fuel : ℕ) (first : Bool) (prev : Option Char)
    (cs : Str) (prob : ℚ) (stack) : priorGo g log (fuel + 1) ⟨first, prev, ' ' :: cs, prob, stack⟩ =
      priorGo g log fuel ⟨false, some ' ', cs, prob, stack⟩ :=
  priorGo_step rfl (by simp [priorStep])

theorem priorGo_open (g : Grammar) (log : Bool) (fuel : ℕ) (first : Bool) (prev : Option Char)
    (cs : Str) (prob : ℚ) (stack) (h : first = true ∨ cs.head? ≠ some ' ') :
    priorGo g log (fuel + 1) ⟨first, prev, '(' :: cs, prob, stack⟩ =
      priorGo g log fuel ⟨false, some '(', cs, prob, stack⟩ := by
  have : first = true ∨ ¬ (prev = some ' ' ∧ cs.head? = some ' ') := by tauto
  refine priorGo_step rfl ?_
  unfold priorStep
  rw [if_neg (by decide), if_pos ⟨rfl, this⟩]

/-- A character that begins no special case. -/
def Ordinary (c : Char) : Prop := ¬ (c = ' ' ∨ c = '\t' ∨ c = '\n') ∧ c ≠ '(' ∧ c ≠ ')'

theorem priorStep_ordinary (g : Grammar) (log : Bool) (st : PSt) (c : Char) (cs : Str)
    (h : Ordinary c) : priorStep g log st c cs = symStep g st := by
  obtain ⟨h1, h2, h3⟩ := h
  unfold priorStep
  rw [if_neg h1, if_neg (fun h => h2 h.1), if_neg (fun h => h3 h.1)]

theorem priorGo_terminal {g : Grammar} (log : Bool) (fuel : ℕ) (first : Bool) (prev : Option Char)
    {s b : Str} (hs : s ≠ []) (ho : ∀ c ∈ s, Ordinary c) (hm : longestMatch g (s ++ b) = some s)
    (ht : s ∈ g.terminals) (prob : ℚ) {ps ps' : List Production} {n : ℕ} (stack)
    (hk : keepAt ps n (· = .t s) = some ps') :
    priorGo g log (fuel + 1) ⟨first, prev, s ++ b, prob, (ps, n) :: stack⟩ =
      priorGo g log fuel ⟨false, s.getLast?, b, prob, (ps', n + 1) :: stack⟩ := by
  cases s with
  | nil => exact absurd rfl hs
  | cons c cs =>
    refine priorGo_step rfl ?_
    rw [priorStep_ordinary _ _ _ _ _ (ho c (by simp))]
    simp only [symStep, hm, if_pos ht, hk, Option.map_some, PSt.skip]
    simp

theorem priorGo_nonterminal {g : Grammar} (log : Bool) (fuel : ℕ) (first : Bool)
    (prev : Option Char) {s b : Str} (hs : s ≠ []) (ho : ∀ c ∈ s, Ordinary c)
    (hm : longestMatch g (s ++ b) = some s) (ht : s ∉ g.terminals) (prob : ℚ)
    {stack stack' : List (List Production × ℕ)}
    (hk : (stack = [] ∧ stack' = []) ∨ ∃ ps n ps' st, stack = (ps, n) :: st ∧
      stack' = (ps', n + 1) :: st ∧ keepAt ps n (fun x => x.str = s) = some ps') :
    priorGo g log (fuel + 1) ⟨first, prev, s ++ b, prob, stack⟩ =
      priorGo g log fuel ⟨false, s.getLast?, b, prob, (g.productions s, 0) :: stack'⟩ := by
  cases s with
  | nil => exact absurd rfl hs
  | cons c cs =>
    refine priorGo_step rfl ?_
    rw [priorStep_ordinary _ _ _ _ _ (ho c (by simp))]
    rcases hk with ⟨rfl, rfl⟩ | ⟨ps, n, ps', st, rfl, rfl, hk⟩
    · simp only [symStep, hm, if_neg ht, PSt.skip]
      simp
    · simp only [symStep, hm, if_neg ht, hk, Option.map_some, PSt.skip]
      simp

theorem priorGo_close {g : Grammar} (log : Bool) (fuel : ℕ) (first : Bool) {prev : Option Char}
    (hp : prev ≠ some ' ') (b : Str) (prob : ℚ) {p : Production} {ps : List Production} {n : ℕ}
    (stack) {q : ℚ} (hf : factor g log p = some q) :
    priorGo g log (fuel + 1) ⟨first, prev, ')' :: b, prob, (p :: ps, n) :: stack⟩ =
      priorGo g log fuel ⟨false, some ')', b, prob * q, stack⟩ := by
  refine priorGo_step rfl ?_
  unfold priorStep
  rw [if_neg (by decide), if_neg (fun h => absurd h.1 (by decide)), if_pos ⟨rfl, hp⟩]
  simp only [closeStep, hf, Option.map_some]

theorem getLast_ordinary {s : Str} (ho : ∀ c ∈ s, Ordinary c) :
    s.getLast? ≠ some ' ' := by
  intro h
  have := ho ' ' (List.mem_of_getLast? h)
  exact this.1 (Or.inl rfl)

theorem Derives.heads {ok : Str → List Sym → Prop} {syms : List Sym} {f : Forest}
    (h : Derives ok syms f) : f.heads = syms := by
  induction h with
  | nil => rfl
  | leaf _ ih => simp [Forest.heads, ih]
  | node _ _ _ _ ih => simp [Forest.heads, ih]

/-- Reading the text of a sequence of trees below a node. -/
theorem priorGo_text {g : Grammar} (hg : g.Readable)
    {v : List (Str × List ℚ)} (hv : g.prior = some v) {prob : Str → List Sym → ℚ}
    (hprob : g.PriorIs v prob) {syms : List Sym} {f : Forest} (hd : Derives g.Legal syms f) :
    ∀ (A : Str) (done : List Sym), g.Legal A (done ++ syms) → ∀ (prev : Option Char),
      prev ≠ some ' ' → ∃ (k : ℕ) (prev' : Option Char), k ≤ f.text.length ∧ prev' ≠ some ' ' ∧
      ∀ (fuel : ℕ) (b : Str) (q : ℚ) (stack : List (List Production × ℕ)),
        priorGo g false (fuel + k) ⟨false, prev, f.text ++ ')' :: b, q,
          (cand g A done, done.length) :: stack⟩ =
        priorGo g false fuel ⟨false, prev', ')' :: b, q * f.prob prob,
          (cand g A (done ++ syms), (done ++ syms).length) :: stack⟩ := by
  induction hd with
  | nil =>
    intro A done hl prev hprev
    exact ⟨0, prev, by simp, hprev, fun fuel b q stack => by simp [Forest.text, Forest.prob]⟩
  | @leaf s syms f hf ih =>
    intro A done hl prev hprev
    have hrhs := hg.rhs _ hl s (by simp)
    have hs : s ≠ [] := hrhs.2.2.2.2.2
    have ho : ∀ c ∈ s, Ordinary c := by
      intro c hc
      refine ⟨?_, ?_, ?_⟩
      · rintro (rfl | rfl | rfl) <;> simp_all
      · rintro rfl; simp_all
      · rintro rfl; simp_all
    have hl' : g.Legal A ((done ++ [.t s]) ++ syms) := by simpa using hl
    obtain ⟨k, prev', hk, hp', he⟩ := ih A (done ++ [.t s]) hl' s.getLast? (getLast_ordinary ho)
    refine ⟨k + 2, prev', ?_, hp', ?_⟩
    · have : 1 ≤ s.length := List.length_pos_iff.2 hs
      simp [Forest.text]; omega
    · intro fuel b q stack
      have e : (Forest.leaf s f).text ++ ')' :: b = ' ' :: (s ++ (f.text ++ ')' :: b)) := by
        simp [Forest.text]
      have hsym : s ∈ g.symbols := mem_symbols.2 (Or.inr ⟨_, hl, .t s, by simp, rfl⟩)
      have hterm : s ∈ g.terminals := mem_terminals.2 ⟨⟨_, hl, .t s, by simp, rfl⟩, by
        rintro p hp rfl
        exact hg.apart _ hl p hp (by simp)⟩
      have hm : longestMatch g (s ++ (f.text ++ ')' :: b)) = some s := by
        have : ∃ c r, f.text ++ ')' :: b = c :: r ∧ (c = ' ' ∨ c = ')') := by
          cases f with
          | nil => exact ⟨_, _, rfl, Or.inr rfl⟩
          | leaf => exact ⟨_, _, rfl, Or.inl rfl⟩
          | node => exact ⟨_, _, rfl, Or.inl rfl⟩
        obtain ⟨c, r, e, hc⟩ := this
        rw [e]
        exact hg.read hsym hc
      have hkeep : keepAt (cand g A done) done.length (· = .t s) =
          some (cand g A (done ++ [.t s])) :=
        keepAt_cand hg hl (by simp)
      rw [e, show fuel + (k + 2) = (fuel + k + 1) + 1 by ring, priorGo_space,
        priorGo_terminal _ _ _ _ hs ho hm hterm _ _ hkeep]
      have := he fuel b q stack
      simp only [List.length_append, List.length_singleton, List.append_assoc,
        List.singleton_append] at this ⊢
      rw [this]
      rfl
  | @node B rhs kids syms f hok hk hf ihk ihf =>
    intro A done hl prev hprev
    have hlhs := hg.lhs _ hok
    have hs : B ≠ [] := hlhs.2.2.2.2.2
    have ho : ∀ c ∈ B, Ordinary c := by
      intro c hc
      refine ⟨?_, ?_, ?_⟩
      · rintro (rfl | rfl | rfl) <;> simp_all
      · rintro rfl; simp_all
      · rintro rfl; simp_all
    have hl' : g.Legal A ((done ++ [.nt B]) ++ syms) := by simpa using hl
    obtain ⟨k1, prev1, hk1, hp1, he1⟩ := ihk B [] (by simpa using hok) B.getLast?
      (getLast_ordinary ho)
    obtain ⟨k2, prev2, hk2, hp2, he2⟩ := ihf A (done ++ [.nt B]) hl' (some ')') (by decide)
    refine ⟨k2 + 1 + k1 + 3, prev2, ?_, hp2, ?_⟩
    · have : 1 ≤ B.length := List.length_pos_iff.2 hs
      simp [Forest.text]; omega
    · intro fuel b q stack
      have e : (Forest.node B kids f).text ++ ')' :: b =
          ' ' :: '(' :: (B ++ (kids.text ++ ')' :: (f.text ++ ')' :: b))) := by
        simp [Forest.text]
      have hsym : B ∈ g.symbols := mem_symbols.2 (Or.inl ⟨_, hok, rfl⟩)
      have hterm : B ∉ g.terminals := fun h => (mem_terminals.1 h).2 _ hok rfl
      have hm : longestMatch g (B ++ (kids.text ++ ')' :: (f.text ++ ')' :: b))) = some B := by
        have : ∃ c r, kids.text ++ ')' :: (f.text ++ ')' :: b) = c :: r ∧ (c = ' ' ∨ c = ')') := by
          cases kids with
          | nil => exact ⟨_, _, rfl, Or.inr rfl⟩
          | leaf => exact ⟨_, _, rfl, Or.inl rfl⟩
          | node => exact ⟨_, _, rfl, Or.inl rfl⟩
        obtain ⟨c, r, e, hc⟩ := this
        rw [e]
        exact hg.read hsym hc
      have hkeep : keepAt (cand g A done) done.length (fun x => x.str = B) =
          some (cand g A (done ++ [.nt B])) :=
        keepAt_cand hg hl (by
          intro p hp y hy
          simp only [decide_eq_true_eq]
          constructor
          · intro h
            rcases Sym.eq_of_str h with rfl | rfl
            · rfl
            · exact absurd hy (hg.apart p hp _ hok)
          · rintro rfl; rfl)
      have hhead : (B ++ (kids.text ++ ')' :: (f.text ++ ')' :: b))).head? ≠ some ' ' := by
        cases B with
        | nil => exact absurd rfl hs
        | cons c cs =>
          have := (ho c (by simp)).1
          simp only [List.cons_append, List.head?_cons, ne_eq, Option.some.injEq]
          tauto
      rw [e, show fuel + (k2 + 1 + k1 + 3) = (fuel + k2 + 1 + k1 + 2) + 1 by ring, priorGo_space,
        show fuel + k2 + 1 + k1 + 2 = (fuel + k2 + 1 + k1 + 1) + 1 by ring,
        priorGo_open _ _ _ _ _ _ _ _ (Or.inr hhead),
        priorGo_nonterminal false (fuel + k2 + 1 + k1) _ _ hs ho hm hterm q
          (Or.inr ⟨_, _, _, _, rfl, rfl, hkeep⟩)]
      have h1 := he1 (fuel + k2 + 1) (f.text ++ ')' :: b) q
        ((cand g A (done ++ [.nt B]), done.length + 1) :: stack)
      rw [cand_nil] at h1
      simp only [List.length_nil, List.nil_append] at h1
      rw [h1]
      obtain ⟨ps, hps⟩ := cand_full hg hok
      rw [hps, priorGo_close false (fuel + k2) false hp1 _ _ _ (factor_eq hv hprob hok)]
      have h2 := he2 fuel b (q * kids.prob prob * prob B rhs) stack
      simp only [List.length_append, List.length_singleton, List.append_assoc,
        List.singleton_append] at h2 ⊢
      rw [h2]
      rw [Forest.prob, hk.heads]
      congr 2
      ring

/-! ## C95 -/

theorem Grammar.Readable.ordinary {g : Grammar} (hg : g.Readable) {A : Str} {rhs : List Sym}
    (hl : g.Legal A rhs) : A ≠ [] ∧ ∀ c ∈ A, Ordinary c := by
  have hlhs := hg.lhs _ hl
  refine ⟨hlhs.2.2.2.2.2, fun c hc => ⟨?_, ?_, ?_⟩⟩
  · rintro (rfl | rfl | rfl) <;> simp_all
  · rintro rfl; simp_all
  · rintro rfl; simp_all

/-- **C95** holds only in part: `compute_prior(log=False)` of a parse tree is the product of the
probabilities of the productions used in it.  Missing: grammars in which one right hand side is a
proper prefix of another one of the same nonterminal (`C95_prefix_raises_fails`,
`C95_prefix_wrong_fails`), and `log=True` (`C95_log_fails`). -/
theorem C95_product_partial (g : Grammar) (hg : g.Readable) (v : List (Str × List ℚ))
    (hv : g.prior = some v) (prob : Str → List Sym → ℚ) (hprob : g.PriorIs v prob) (A : Str)
    (rhs : List Sym) (kids : Forest) (hA : g.Legal A rhs) (hk : Derives g.Legal rhs kids) :
    computePrior g (treeText A kids) false = some (treeProb prob A kids) := by
  obtain ⟨hs, ho⟩ := hg.ordinary hA
  obtain ⟨k, prev, hkl, hp, he⟩ := priorGo_text hg hv hprob hk A [] (by simpa using hA) A.getLast?
    (getLast_ordinary ho)
  have hsym : A ∈ g.symbols := mem_symbols.2 (Or.inl ⟨_, hA, rfl⟩)
  have hterm : A ∉ g.terminals := fun h => (mem_terminals.1 h).2 _ hA rfl
  have e : treeText A kids = '(' :: (A ++ (kids.text ++ [')'])) := by simp [treeText]
  have hm : longestMatch g (A ++ (kids.text ++ [')'])) = some A := by
    have : ∃ c r, kids.text ++ [')'] = c :: r ∧ (c = ' ' ∨ c = ')') := by
      cases kids with
      | nil => exact ⟨_, _, rfl, Or.inr rfl⟩
      | leaf => exact ⟨_, _, rfl, Or.inl rfl⟩
      | node => exact ⟨_, _, rfl, Or.inl rfl⟩
    obtain ⟨c, r, e, hc⟩ := this
    rw [e]
    exact hg.read hsym hc
  obtain ⟨m, hm2⟩ : ∃ m, (treeText A kids).length + 1 = ((m + 1 + 1) + k + 1) + 1 := by
    have : 1 ≤ A.length := List.length_pos_iff.2 hs
    refine ⟨A.length + kids.text.length + 3 - (k + 4), ?_⟩
    rw [e]
    simp
    omega
  unfold computePrior
  rw [hm2]
  simp only [Bool.false_eq_true, if_false]
  rw [e, priorGo_open _ _ _ _ _ _ _ _ (Or.inl rfl),
    priorGo_nonterminal false _ _ _ hs ho hm hterm 1 (Or.inl ⟨rfl, rfl⟩)]
  have h1 := he (m + 1 + 1) [] 1 []
  rw [cand_nil] at h1
  simp only [List.length_nil, List.nil_append] at h1
  rw [h1]
  obtain ⟨ps, hps⟩ := cand_full hg hA
  rw [hps, priorGo_close false (m + 1) false hp _ _ _ (factor_eq hv hprob hA)]
  simp only [priorGo, List.isEmpty_nil, if_true, treeProb, hk.heads, Option.some.injEq]
  ring

theorem priorGo_log {g : Grammar} (fuel : ℕ) : ∀ {st : PSt} {q : ℚ},
    priorGo g true fuel st = some q → st.stack = [] := by
  induction fuel with
  | zero => intro st q h; simp [priorGo] at h
  | succ fuel ih =>
    intro st q h
    simp only [priorGo] at h
    split at h
    · split_ifs at h with he
      simpa using he
    · rename_i c cs _
      split at h
      · simp at h
      · rename_i st' hs
        have h' := ih h
        unfold priorStep at hs
        split_ifs at hs with h1 h2 h3
        · obtain rfl := Option.some.inj hs
          exact h'
        · obtain rfl := Option.some.inj hs
          exact h'
        · unfold closeStep at hs
          split at hs <;> simp [factor] at hs
        · unfold symStep at hs
          split at hs
          · simp at hs
          · split_ifs at hs
            · split at hs
              · simp at hs
              · simp only [Option.map_eq_some_iff] at hs
                obtain ⟨_, _, rfl⟩ := hs
                simp [PSt.skip] at h'
            · split at hs
              · assumption
              · simp only [Option.map_eq_some_iff] at hs
                obtain ⟨_, _, rfl⟩ := hs
                simp [PSt.skip] at h'

/-- **C95 fails** with `log=True`, the default: for every grammar, every prior and every parse tree
it raises.  (The only condition is on the first character of the name of the root.) -/
theorem C95_log_fails (g : Grammar) (A : Str) (kids : Forest) (c : Char) (cs : Str)
    (hA : A = c :: cs) (hc : c ∉ [' ', '\t', '\n', '(', ')']) :
    computePrior g (treeText A kids) true = none := by
  cases h : computePrior g (treeText A kids) true with
  | none => rfl
  | some q =>
    exfalso
    unfold computePrior at h
    subst hA
    have e : treeText (c :: cs) kids = '(' :: c :: (cs ++ (kids.text ++ [')'])) := by simp [treeText]
    obtain ⟨m, hm⟩ : ∃ m, (treeText (c :: cs) kids).length + 1 = (m + 1) + 1 :=
      ⟨cs.length + kids.text.length + 2, by rw [e]; simp; omega⟩
    rw [hm, e, priorGo_open _ _ _ _ _ _ _ _ (Or.inl rfl)] at h
    simp only [priorGo] at h
    have ho : Ordinary c := by
      simp at hc
      exact ⟨by tauto, by tauto, by tauto⟩
    rw [priorStep_ordinary _ _ _ _ _ ho] at h
    split at h
    · simp at h
    · rename_i st' hs
      have h' := priorGo_log m h
      unfold symStep at hs
      simp only at hs
      split at hs
      · simp at hs
      · split_ifs at hs
        obtain rfl := Option.some.inj hs
        simp [PSt.skip] at h'

/-- A prior on the operations of two cells in a row. -/
def pairP : Grammar :=
  { pairG with prior := some [("S".toList, [1]), ("A".toList, [1 / 4, 3 / 4])] }

theorem pairP_readable : pairP.Readable where
  lhs := by decide +kernel
  rhs := by
    intro p hp s hs
    simp [pairP, pairG] at hp
    rcases hp with rfl | rfl | rfl <;> simp at hs <;> subst hs <;> decide
  apart := by decide +kernel
  defined := by
    intro p hp B hB
    simp [pairP, pairG] at hp
    rcases hp with rfl | rfl | rfl <;> simp at hB
    subst hB
    exact ⟨⟨"A".toList, [.t "a".toList]⟩, by simp [pairP, pairG], rfl⟩
  prefixFree := by decide +kernel

/-- `C95_product_partial` at work, with a tree that uses both operations. -/
example : ∃ kids, treeText "S".toList kids = "(S (A a) (A b))".toList ∧
    computePrior pairP (treeText "S".toList kids) false = some (1 * (1 / 4) * (3 / 4)) := by
  let prob : Str → List Sym → ℚ := fun A rhs =>
    if A = "S".toList then 1 else if rhs = [.t "a".toList] then 1 / 4 else 3 / 4
  refine ⟨.node "A".toList (.leaf "a".toList .nil) (.node "A".toList (.leaf "b".toList .nil) .nil),
    by decide +kernel, ?_⟩
  rw [C95_product_partial pairP pairP_readable _ rfl prob ?_ "S".toList
    [.nt "A".toList, .nt "A".toList] _ (by unfold Grammar.Legal; decide +kernel)
    (.node (rhs := [.t "a".toList]) (by unfold Grammar.Legal; decide +kernel) (.leaf .nil)
      (.node (rhs := [.t "b".toList]) (by unfold Grammar.Legal; decide +kernel) (.leaf .nil) .nil))]
  · simp [treeProb, Forest.prob, Forest.heads, prob]
  · intro A i rhs h
    have hm := mem_productions.1 (List.mem_of_getElem? h)
    have hA : A = "S".toList ∨ A = "A".toList := by
      have := hm.1
      simp [pairP, pairG] at this
      rcases this with h | h | h <;> simp [h.1]
    rcases hA with rfl | rfl
    · have e : pairP.productions "S".toList = [⟨"S".toList, [.nt "A".toList, .nt "A".toList]⟩] := by
        decide +kernel
      rw [e] at h
      refine ⟨[1], by decide +kernel, ?_⟩
      cases i with
      | zero => simp [prob]
      | succ i => simp at h
    · have e : pairP.productions "A".toList = [⟨"A".toList, [.t "a".toList]⟩,
          ⟨"A".toList, [.t "b".toList]⟩] := by decide +kernel
      rw [e] at h
      refine ⟨[1 / 4, 3 / 4], by decide +kernel, ?_⟩
      match i with
      | 0 => simp at h; simp [prob, ← h]
      | 1 => simp at h; simp [prob, ← h]
      | i + 2 => simp at h

/-- A cell with one or two operations; the shorter right hand side comes first. -/
def shortFirst : Grammar where
  start := "S".toList
  prods := [⟨"S".toList, [.t "a".toList]⟩, ⟨"S".toList, [.t "a".toList, .t "b".toList]⟩]
  prior := some [("S".toList, [1 / 4, 3 / 4])]

/-- **C95 fails**: the tree `(S a b)` can be sampled, but its probability cannot be computed. -/
theorem C95_prefix_raises_fails :
    sampler shortFirst 1 1 none true [1] = some (["(S a b)".toList], []) ∧
    computePrior shortFirst "(S a b)".toList false = none := by
  constructor <;> decide +kernel

/-- The same with the longer right hand side first. -/
def longFirst : Grammar where
  start := "S".toList
  prods := [⟨"S".toList, [.t "a".toList, .t "b".toList]⟩, ⟨"S".toList, [.t "a".toList]⟩]
  prior := some [("S".toList, [1, 0])]

/-- **C95 fails**: the tree `(S a)`, whose production has the probability 0, gets that of the other
production, 1. -/
theorem C95_prefix_wrong_fails :
    lookup "S".toList [("S".toList, [(1 : ℚ), 0])] = some [1, 0] ∧
    (longFirst.productions "S".toList)[1]? = some ⟨"S".toList, [.t "a".toList]⟩ ∧
    sampler longFirst 1 1 none true [1] = none ∧
    computePrior longFirst "(S a)".toList false = some 1 := by
  refine ⟨?_, ?_, ?_, ?_⟩ <;> decide +kernel

/-- **C95**: the value is not the probability of sampling the tree, because the sampler draws equal
nonterminals of one production only once: two numbers are drawn, the first without an alternative,
and the second number 0, which has the probability 1/4, always gives `(S (A a) (A a))`.  The
probability computed for it is 1/16, and for the trees that can be sampled the sum is 10/16. -/
theorem C95_sampler_fails :
    sampler pairP 2 1 none true [0, 0] = some (["(S (A a) (A a))".toList], []) ∧
    sampler pairP 2 1 none true [0, 1] = some (["(S (A b) (A b))".toList], []) ∧
    computePrior pairP "(S (A a) (A a))".toList false = some (1 / 16) ∧
    computePrior pairP "(S (A b) (A b))".toList false = some (9 / 16) := by
  refine ⟨?_, ?_, ?_, ?_⟩ <;> decide +kernel

end Verif.Gram
