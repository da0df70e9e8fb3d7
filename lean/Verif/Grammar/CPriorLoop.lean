import Verif.Grammar.CPriorLemmas

/-!
# The loop of `ConstrainedGrammar.compute_prior`
-/

namespace Verif.Gram

/-! ## The factor of one production -/

theorem pickPrior_eq {g : Grammar} (hnd : g.prods.Nodup) (prob : Str → List Sym → ℚ) {B : Str}
    {rhs : List Sym} (hl : g.Legal B rhs) (P : Production → Bool) (hP : P ⟨B, rhs⟩ = false)
    (hsum : (g.productions B).filter P ≠ [] →
      (((g.productions B).filter (fun p => p ∉ (g.productions B).filter P)).map
        fun p => prob B p.rhs).sum ≠ 0) :
    pickPrior (g.productions B) ((g.productions B).map fun p => prob B p.rhs) ⟨B, rhs⟩
      ((g.productions B).filter P) =
      some (condProb g prob ((g.productions B).filter P) B rhs) := by
  have hx : (⟨B, rhs⟩ : Production) ∈ g.productions B := mem_productions.2 ⟨hl, rfl⟩
  have hndB : (g.productions B).Nodup := hnd.filter _
  unfold pickPrior condProb
  by_cases he : (g.productions B).filter P = []
  · rw [if_pos he, he]
    simp only [List.length_nil, lt_self_iff_false, if_false]
    rw [List.getElem?_map, List.getElem?_eq_getElem (List.idxOf_lt_length_iff.2 hx)]
    simp
  · rw [if_neg he]
    simp only
    rw [if_pos (List.length_pos_iff.2 he), kept_eq _ hndB, if_neg (hsum he), if_neg (by
      rw [List.mem_filter]; simp [hP]), List.getElem?_map, List.getElem?_map,
      moved_index _ hndB P hx hP]
    rfl

/-- What `current_derivations` holds for an operation with `n` arguments, of which those with the
operations `ns` are closed. -/
def entry (n : ℕ) (ns : List Str) : Option (List (Option Str)) :=
  if ns.length = 0 ∨ n ≤ ns.length then none
  else some (ns.map some ++ List.replicate (n - ns.length) none)

theorem entry_nil (n : ℕ) : entry n [] = none := by simp [entry]

theorem entry_full {n : ℕ} {ns : List Str} (h : ns.length = n) : entry n ns = none := by
  simp [entry, h]

theorem askConstraint_eq {g : CGrammar} {c : FunConstraint} (hc : g.constraints = .fn c)
    {p : Production} {x op : Sym} (hx : p.rhs.head? = some x) {n : ℕ} {ns : List Str}
    (hs : c.start op = some (List.replicate n none)) (hn : ns.length < n) {D : Derivs} {m : ℕ}
    (hD : D m = entry n ns) {b : Bool}
    (hb : c.ask op (ns.map some ++ List.replicate (n - ns.length) none) = some (.bool b) ∨
      ∃ l, c.ask op (ns.map some ++ List.replicate (n - ns.length) none) = some (.list l) ∧
        l[ns.length]? = some b) :
    askConstraint g p op m D = some (notAllowedProds g.noneOp (g.productions p.lhs) b,
      Function.update D m (entry n (ns ++ [x.str]))) := by
  have hd : (D m).or (c.start op) = some (ns.map some ++ List.replicate (n - ns.length) none) := by
    rw [hD]
    unfold entry
    by_cases h0 : ns.length = 0
    · have : ns = [] := List.length_eq_zero_iff.1 h0
      subst this
      simp [hs]
    · rw [if_neg (by omega)]
      rfl
  obtain ⟨k, hk⟩ : ∃ k, n - ns.length = k + 1 := ⟨n - ns.length - 1, by omega⟩
  have hidx : (ns.map some ++ List.replicate (n - ns.length) none).idxOf none = ns.length := by
    rw [List.idxOf_append_of_notMem (by simp), hk, List.replicate_succ]
    simp
  have hmem : none ∈ ns.map some ++ List.replicate (n - ns.length) (none : Option Str) := by
    rw [hk, List.replicate_succ]
    simp
  have hset : (ns.map some ++ List.replicate (n - ns.length) none).set ns.length (some x.str) =
      (ns ++ [x.str]).map some ++ List.replicate (n - (ns ++ [x.str]).length) none := by
    rw [List.set_append, List.length_map, if_neg (by omega), Nat.sub_self, hk, List.replicate_succ,
      List.set_cons_zero]
    have : n - (ns ++ [x.str]).length = k := by
      simp only [List.length_append, List.length_singleton]; omega
    rw [this]
    simp
  have hlast : (if none ∈ (ns ++ [x.str]).map some ++
      List.replicate (n - (ns ++ [x.str]).length) (none : Option Str) then
        some ((ns ++ [x.str]).map some ++ List.replicate (n - (ns ++ [x.str]).length) none)
      else none) = entry n (ns ++ [x.str]) := by
    unfold entry
    by_cases hf : n ≤ (ns ++ [x.str]).length
    · have e : n - (ns ++ [x.str]).length = 0 := by omega
      rw [if_pos (Or.inr hf), e, if_neg (by simp)]
    · obtain ⟨j, hj⟩ : ∃ j, n - (ns ++ [x.str]).length = j + 1 :=
        ⟨n - (ns ++ [x.str]).length - 1, by omega⟩
      rw [if_pos (by rw [hj, List.replicate_succ]; simp),
        if_neg (by simp only [List.length_append, List.length_singleton] at hf ⊢; omega)]
  have hans : (c.ask op (ns.map some ++ List.replicate (n - ns.length) none)).bind
      (Answer.at ns.length) = some b := by
    rcases hb with h | ⟨l, h, h'⟩
    · rw [h]; rfl
    · rw [h]; exact h'
  unfold askConstraint
  rw [hc]
  simp only
  rw [hd]
  simp only
  rw [if_pos hmem, hidx, hans]
  simp only
  rw [hx]
  simp only
  rw [hset, hlast]

theorem anyNone_eq {noneOp : Option Str} {ps : List Production} (h : ∀ p ∈ ps, p.rhs ≠ []) :
    ((∃ p ∈ ps, ∃ s, noneOp = some s ∧ p.rhs.head? = some (.t s)) → anyNone noneOp ps = some true) ∧
    ((¬ ∃ p ∈ ps, ∃ s, noneOp = some s ∧ p.rhs.head? = some (.t s)) →
      anyNone noneOp ps = some false) := by
  induction ps with
  | nil => simp [anyNone]
  | cons p ps ih =>
    obtain ⟨h1, h2⟩ := ih fun q hq => h q (by simp [hq])
    obtain ⟨lhs, rhs⟩ := p
    have hne := h ⟨lhs, rhs⟩ (by simp)
    match rhs with
    | [] => exact absurd rfl hne
    | .nt A :: r =>
      simp only [anyNone]
      constructor
      · rintro ⟨q, hq, s, hs, he⟩
        rcases List.mem_cons.1 hq with rfl | hq
        · simp at he
        · exact h1 ⟨q, hq, s, hs, he⟩
      · intro hn
        exact h2 fun ⟨q, hq, s, hs, he⟩ => hn ⟨q, by simp [hq], s, hs, he⟩
    | .t w :: r =>
      simp only [anyNone]
      constructor
      · rintro ⟨q, hq, s, hs, he⟩
        split_ifs with hw
        · rfl
        · rcases List.mem_cons.1 hq with rfl | hq
          · simp at he
            subst he
            exact absurd hs.symm hw
          · exact h1 ⟨q, hq, s, hs, he⟩
      · intro hn
        rw [if_neg (fun hw => hn ⟨⟨lhs, .t w :: r⟩, by simp, w, hw.symm, by simp⟩)]
        exact h2 fun ⟨q, hq, s, hs, he⟩ => hn ⟨q, by simp [hq], s, hs, he⟩

theorem Grammar.Readable.rhs_ne {g : Grammar} (hg : g.Readable) {B : Str} {rhs : List Sym}
    (hl : g.Legal B rhs) (hne : rhs ≠ []) : ∀ p ∈ g.productions B, p.rhs ≠ [] := by
  intro p hp he
  obtain ⟨h1, h2⟩ := mem_productions.1 hp
  have := hg.prefixFree p h1 ⟨B, rhs⟩ hl h2 (by rw [he]; exact List.nil_prefix)
  exact hne (this.symm.trans he)

theorem noneAble_iff {g : CGrammar} {B : Str} : g.NoneAble B ↔
    ∃ p ∈ g.productions B, ∃ s, g.noneOp = some s ∧ p.rhs.head? = some (.t s) := by
  constructor
  · rintro ⟨rhs, s, hl, hs, hh⟩
    exact ⟨⟨B, rhs⟩, mem_productions.2 ⟨hl, rfl⟩, s, hs, hh⟩
  · rintro ⟨p, hp, s, hs, hh⟩
    obtain ⟨h1, h2⟩ := mem_productions.1 hp
    refine ⟨p.rhs, s, ?_, hs, hh⟩
    unfold Grammar.Legal
    rw [← h2]
    exact h1

/-- Nothing is excluded for nonterminals without the none operation. -/
theorem excluded_nil {g : CGrammar} {c : FunConstraint} {op : Sym} {before : List Str} {B : Str}
    (h : ¬ g.NoneAble B) : g.excluded c op before B = [] := by
  unfold CGrammar.excluded
  split_ifs
  · rw [List.filter_eq_nil_iff]
    intro p hp hh
    rw [Option.any_eq_true] at hh
    obtain ⟨s, hs, he⟩ := hh
    refine h (noneAble_iff.2 ⟨p, hp, s, hs, ?_⟩)
    rw [decide_eq_true_eq] at he
    rw [he]
    rfl
  · rfl

theorem notAllowedProds_eq (noneOp : Option Str) (ps : List Production) (b : Bool) :
    notAllowedProds noneOp ps b =
      if b = false then ps.filter (fun p => noneOp.any fun s => p.rhs = [.t s]) else [] := by
  cases b with
  | true => simp [notAllowedProds]
  | false =>
    rw [if_pos rfl]
    unfold notAllowedProds
    apply List.filter_congr
    intro p _
    obtain ⟨lhs, rhs⟩ := p
    rw [Bool.eq_iff_iff]
    match rhs with
    | [] => cases noneOp <;> simp
    | [.nt A] => cases noneOp <;> simp
    | [.t s] =>
      cases noneOp with
      | none => simp
      | some w => simp
    | a :: b :: r => cases noneOp <;> simp

theorem says_answer {c : FunConstraint} {op : Sym} {before : List Str} {b : Bool}
    (h : c.Says op before b) : c.answer op before = some b := by
  obtain ⟨d, hd, _, hb⟩ := h
  unfold FunConstraint.answer
  rw [hd]
  rcases hb with h | ⟨l, h, h'⟩
  · simp only [h]
  · simp only [h, h']

theorem pick_excluded {g : CGrammar} (hnd : g.prods.Nodup) {prob : Str → List Sym → ℚ}
    (hrem : g.Remaining prob) {c : FunConstraint} {op : Sym} {before : List Str} {B : Str}
    {k : Forest} (hl : g.Legal B k.heads) {b : Bool} (hsay : c.Says op before b)
    (hperm : b = false → ∀ s, g.noneOp = some s → k.heads ≠ [.t s]) :
    pickPrior (g.productions B) ((g.productions B).map fun p => prob B p.rhs) ⟨B, k.heads⟩
      (notAllowedProds g.noneOp (g.productions B) b) =
      some (condProb g.toGrammar prob (g.excluded c op before B) B k.heads) := by
  have e : g.excluded c op before B = notAllowedProds g.noneOp (g.productions B) b := by
    rw [notAllowedProds_eq]
    unfold CGrammar.excluded
    rw [says_answer hsay]
    cases b <;> simp
  rw [e]
  unfold notAllowedProds
  refine pickPrior_eq hnd prob hl _ ?_ ?_
  · rw [← Bool.not_eq_true]
    intro h
    have hm : (⟨B, k.heads⟩ : Production) ∈ notAllowedProds g.noneOp (g.productions B) b := by
      unfold notAllowedProds
      exact List.mem_filter.2 ⟨mem_productions.2 ⟨hl, rfl⟩, h⟩
    obtain ⟨_, h1, s, h2, h3⟩ := mem_notAllowedProds.1 hm
    exact hperm h1 s h2 h3
  · intro hne
    change (((g.productions B).filter (fun p => p ∉ notAllowedProds g.noneOp (g.productions B) b)).map
      fun p => prob B p.rhs).sum ≠ 0
    obtain ⟨q, hq⟩ := List.exists_mem_of_ne_nil _ hne
    obtain ⟨hq1, hq2, s, hs, hq3⟩ := mem_notAllowedProds.1 hq
    obtain ⟨hq4, hq5⟩ := mem_productions.1 hq1
    have hlq : g.Legal B [.t s] := by
      unfold Grammar.Legal
      rw [← hq5, ← hq3]
      exact hq4
    have e2 : (g.productions B).filter (fun p => p ∉ notAllowedProds g.noneOp (g.productions B) b) =
        (g.productions B).filter (·.rhs ≠ [.t s]) := by
      apply List.filter_congr
      intro p hp
      rw [Bool.eq_iff_iff, decide_eq_true_eq, decide_eq_true_eq, not_iff_not, mem_notAllowedProds]
      constructor
      · rintro ⟨_, _, s', hs', h⟩
        rw [hs] at hs'
        obtain rfl := Option.some.inj hs'
        exact h
      · intro h
        exact ⟨hp, hq2, s, hs, h⟩
    rw [e2]
    exact hrem B s hs hlq

theorem cand_head {g : Grammar} {A : Str} {done syms : List Sym} {x op : Sym}
    (hl : g.Legal A (done ++ x :: syms)) (hop : (done ++ x :: syms).head? = some op) :
    ∃ p ps, cand g A (done ++ [x]) = p :: ps ∧ p.rhs.head? = some op := by
  have hm : (⟨A, done ++ x :: syms⟩ : Production) ∈ cand g A (done ++ [x]) := by
    unfold cand
    rw [List.mem_filter, mem_productions]
    refine ⟨⟨hl, rfl⟩, ?_⟩
    simp
  cases h : cand g A (done ++ [x]) with
  | nil => rw [h] at hm; simp at hm
  | cons p ps =>
    refine ⟨p, ps, rfl, ?_⟩
    have hp : p ∈ cand g A (done ++ [x]) := by rw [h]; simp
    unfold cand at hp
    obtain ⟨r, hr⟩ := of_decide_eq_true (List.mem_filter.1 hp).2
    rw [← hr]
    cases done with
    | nil => simpa using hop
    | cons d ds => simpa using hop


/-! ## The loop -/

theorem cPriorGo_step {g : CGrammar} {fuel : ℕ} {st st' : CSt} {c : Char} {cs : Str}
    (hr : st.rest = c :: cs) (h : cPriorStep g st c cs = some st') :
    cPriorGo g (fuel + 1) st = cPriorGo g fuel st' := by
  simp only [cPriorGo, hr, h]

theorem cPriorGo_space (g : CGrammar) (fuel : ℕ) (first : Bool) (prev : Option Char)
    (cs : Str) (fs : List ℚ) (stack) (D) :
    cPriorGo g (fuel + 1) ⟨first, prev, ' ' :: cs, fs, stack, D⟩ =
      cPriorGo g fuel ⟨false, some ' ', cs, fs, stack, D⟩ :=
  cPriorGo_step rfl (by simp [cPriorStep])

theorem cPriorGo_open (g : CGrammar) (fuel : ℕ) (first : Bool) (prev : Option Char)
    (cs : Str) (fs : List ℚ) (stack) (D) (hne : cs ≠ []) (h : first = true ∨ cs.head? ≠ some ' ') :
    cPriorGo g (fuel + 1) ⟨first, prev, '(' :: cs, fs, stack, D⟩ =
      cPriorGo g fuel ⟨false, some '(', cs, fs, stack, D⟩ := by
  have : first = true ∨ ¬ (prev = some ' ' ∧ cs.head? = some ' ') := by tauto
  refine cPriorGo_step rfl ?_
  unfold cPriorStep
  rw [if_neg (by decide), if_neg (fun h => hne h.2.2.2), if_pos ⟨rfl, this⟩]

theorem cPriorStep_ordinary (g : CGrammar) (st : CSt) (c : Char) (cs : Str)
    (h : Ordinary c) : cPriorStep g st c cs = cSymStep g.toGrammar st := by
  obtain ⟨h1, h2, h3⟩ := h
  unfold cPriorStep
  rw [if_neg h1, if_neg (fun h => h2 h.1), if_neg (fun h => h2 h.1), if_neg (fun h => h3 h.1)]

theorem cPriorGo_terminal {g : CGrammar} (fuel : ℕ) (first : Bool) (prev : Option Char)
    {s b : Str} (hs : s ≠ []) (ho : ∀ c ∈ s, Ordinary c)
    (hm : cLongestMatch g.toGrammar (s ++ b) = some s)
    (ht : s ∈ g.terminals) (fs : List ℚ) {ps ps' : List Production} {n : ℕ} (stack) (D)
    (hk : keepAt ps n (· = .t s) = some ps') :
    cPriorGo g (fuel + 1) ⟨first, prev, s ++ b, fs, (ps, n) :: stack, D⟩ =
      cPriorGo g fuel ⟨false, s.getLast?, b, fs, (ps', n + 1) :: stack, D⟩ := by
  cases s with
  | nil => exact absurd rfl hs
  | cons c cs =>
    refine cPriorGo_step rfl ?_
    rw [cPriorStep_ordinary _ _ _ _ (ho c (by simp))]
    simp only [cSymStep, hm, if_pos ht, hk, Option.map_some, CSt.skip]
    simp

theorem cPriorGo_nonterminal {g : CGrammar} (fuel : ℕ) (first : Bool)
    (prev : Option Char) {s b : Str} (hs : s ≠ []) (ho : ∀ c ∈ s, Ordinary c)
    (hm : cLongestMatch g.toGrammar (s ++ b) = some s) (ht : s ∉ g.terminals) (fs : List ℚ) (D)
    {stack stack' : List (List Production × ℕ)}
    (hk : (stack = [] ∧ stack' = []) ∨ ∃ ps n ps' st, stack = (ps, n) :: st ∧
      stack' = (ps', n + 1) :: st ∧ keepAt ps n (fun x => x.str = s) = some ps') :
    cPriorGo g (fuel + 1) ⟨first, prev, s ++ b, fs, stack, D⟩ =
      cPriorGo g fuel ⟨false, s.getLast?, b, fs, (g.productions s, 0) :: stack', D⟩ := by
  cases s with
  | nil => exact absurd rfl hs
  | cons c cs =>
    refine cPriorGo_step rfl ?_
    rw [cPriorStep_ordinary _ _ _ _ (ho c (by simp))]
    rcases hk with ⟨rfl, rfl⟩ | ⟨ps, n, ps', st, rfl, rfl, hk⟩
    · simp only [cSymStep, hm, if_neg ht, CSt.skip]
      simp
    · simp only [cSymStep, hm, if_neg ht, hk, Option.map_some, CSt.skip]
      simp

theorem cPriorGo_close {g : CGrammar} (fuel : ℕ) (first : Bool) {prev : Option Char}
    (hp : prev ≠ some ' ') (b : Str) (fs : List ℚ) {p : Production} {ps : List Production} {n : ℕ}
    (stack) (D) {q : ℚ} {D' : Derivs} (hf : cFactor g p stack D = some (q, D')) :
    cPriorGo g (fuel + 1) ⟨first, prev, ')' :: b, fs, (p :: ps, n) :: stack, D⟩ =
      cPriorGo g fuel ⟨false, some ')', b, fs ++ [q], stack, D'⟩ := by
  refine cPriorGo_step rfl ?_
  unfold cPriorStep
  rw [if_neg (by decide), if_neg (fun h => absurd h.1 (by decide)),
    if_neg (fun h => absurd h.1 (by decide)), if_pos ⟨rfl, hp⟩]
  simp only [cCloseStep, hf, Option.map_some]

end Verif.Gram
