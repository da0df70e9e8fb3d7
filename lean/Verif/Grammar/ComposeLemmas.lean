import Verif.Grammar.ComposeModel
import Mathlib.Tactic.Linarith

/-! # Lemmas on composing functions -/

namespace Verif.Gram

/-- The symbols of the grammar can be told apart in a text: none is empty or contains a blank or a
bracket. -/
def Grammar.Lexical (g : Grammar) : Prop :=
  ∀ s ∈ g.nonterminals ++ g.terminals, s ≠ [] ∧
    ∀ c ∈ s, c ≠ ' ' ∧ c ≠ '\t' ∧ c ≠ '\n' ∧ c ≠ '(' ∧ c ≠ ')'

/-- All symbols of the trees are symbols of the grammar. -/
def Forest.Over (g : Grammar) : Forest → Prop
  | .nil => True
  | .leaf s rest => s ∈ g.terminals ∧ Over g rest
  | .node A kids rest => A ∈ g.nonterminals ∧ Over g kids ∧ Over g rest

variable {g : Grammar} {topo : IsTopology}

/-! ## Reading symbols -/

theorem findLongest_eq {symbols : List Str} {rest : Str} {n : ℕ} (hn : 0 < n)
    (hin : rest.take n ∈ symbols) : ∀ K, n ≤ K →
    (∀ k, n < k → k ≤ K → rest.take k ∉ symbols) → findLongest symbols rest K = some n := by
  intro K
  induction K with
  | zero => intro h; omega
  | succ K ih =>
    intro hK hout
    rw [findLongest]
    by_cases h : n = K + 1
    · subst h; rw [if_pos hin]
    · rw [if_neg (hout (K + 1) (by omega) le_rfl)]
      exact ih (by omega) (fun k h1 h2 => hout k h1 (by omega))

theorem le_maxMatch {symbols : List Str} {s : Str} (h : s ∈ symbols) :
    s.length ≤ maxMatch symbols := by
  have : ∀ (l : List ℕ) (a x : ℕ), x ∈ l ∨ x ≤ a → x ≤ l.foldl max a := by
    intro l
    induction l with
    | nil => intro a x h; simpa using h
    | cons b l ih =>
      intro a x h
      apply ih
      rcases h with h | h
      · rcases List.mem_cons.1 h with rfl | h
        · exact Or.inr (le_max_right _ _)
        · exact Or.inl h
      · exact Or.inr (h.trans (le_max_left _ _))
  exact this _ 0 _ (Or.inl (List.mem_map_of_mem h))

/-- What may follow a symbol: a blank or a closing bracket. -/
def Follow (r : Str) : Prop := ∃ d r', r = d :: r' ∧ (d = ' ' ∨ d = ')')

theorem step_symbol (hg : g.Lexical) {sym : Str} (hs : sym ∈ g.nonterminals ++ g.terminals)
    {r : Str} (hr : Follow r) (before : Str) (s s' : Compose)
    (h : s.symbol g topo sym ((sym.reverse ++ before)[1]? = some '(') = some s') :
    composeStep g topo before (sym ++ r) s = some (sym.reverse ++ before, r, s') := by
  obtain ⟨d, r', rfl, hd⟩ := hr
  obtain ⟨hne, hclean⟩ := hg sym hs
  obtain ⟨c, cs, hsym⟩ : ∃ c cs, sym = c :: cs := List.exists_cons_of_ne_nil hne
  have hc := hclean c (by rw [hsym]; exact List.mem_cons_self)
  have hfind : findLongest (g.nonterminals ++ g.terminals) (sym ++ d :: r')
      (min (maxMatch (g.nonterminals ++ g.terminals)) ((sym ++ d :: r').length - 1)) =
      some sym.length := by
    apply findLongest_eq
    · rw [hsym]; simp
    · rw [List.take_left]; exact hs
    · apply le_min (le_maxMatch hs)
      simp
    · intro k hk _ hin
      have hdm : d ∈ (sym ++ d :: r').take k := by
        rw [List.take_append, List.mem_append]
        right
        obtain ⟨m, hm⟩ : ∃ m, k - sym.length = m + 1 := ⟨k - sym.length - 1, by omega⟩
        rw [hm, List.take_succ_cons]
        exact List.mem_cons_self
      obtain ⟨h1, _, _, _, h2⟩ := (hg _ hin).2 d hdm
      rcases hd with rfl | rfl
      · exact h1 rfl
      · exact h2 rfl
  have hskip : ∀ tail, skipChar before c tail = some false := by
    intro tail
    unfold skipChar
    simp [hc.1, hc.2.1, hc.2.2.1, hc.2.2.2.1]
  have hstep : composeStep g topo before (sym ++ d :: r') s =
      (match findLongest (g.nonterminals ++ g.terminals) (sym ++ d :: r')
        (min (maxMatch (g.nonterminals ++ g.terminals)) ((sym ++ d :: r').length - 1)) with
      | none => none
      | some k =>
        match s.symbol g topo ((sym ++ d :: r').take k)
          ((((sym ++ d :: r').take k).reverse ++ before)[1]? = some '(') with
        | none => none
        | some s => some (((sym ++ d :: r').take k).reverse ++ before, (sym ++ d :: r').drop k, s)) := by
    rw [hsym, List.cons_append]
    simp only [composeStep, hskip]
    rw [if_neg (by simp [hc.2.2.2.2])]
    cases findLongest (g.nonterminals ++ g.terminals) (c :: (cs ++ d :: r'))
        (min (maxMatch (g.nonterminals ++ g.terminals)) ((c :: (cs ++ d :: r')).length - 1)) with
    | none => rfl
    | some k =>
      simp only
      cases s.symbol g topo ((c :: (cs ++ d :: r')).take k)
        ((((c :: (cs ++ d :: r')).take k).reverse ++ before)[1]? = some '(') <;> rfl
  rw [hstep, hfind]
  simp only [List.take_left, List.drop_left, h]

/-! ## Runs of the loop -/

/-- The loop comes from one position and state to another, whatever the bound. -/
def Runs (g : Grammar) (topo : IsTopology) (b r : Str) (s : Compose) (b' r' : Str)
    (s' : Compose) : Prop :=
  ∀ n, r.length ≤ n → ∃ n', r'.length ≤ n' ∧
    composeLoop g topo n b r s = composeLoop g topo n' b' r' s'

theorem Runs.refl (b r : Str) (s : Compose) : Runs g topo b r s b r s := fun n h => ⟨n, h, rfl⟩

theorem Runs.trans {b r b' r' b'' r'' : Str} {s s' s'' : Compose}
    (h : Runs g topo b r s b' r' s') (h' : Runs g topo b' r' s' b'' r'' s'') :
    Runs g topo b r s b'' r'' s'' := by
  intro n hn
  obtain ⟨n', hn', e⟩ := h n hn
  obtain ⟨n'', hn'', e'⟩ := h' n' hn'
  exact ⟨n'', hn'', e.trans e'⟩

theorem Runs.step {b r b' r' : Str} {s s' : Compose}
    (h : composeStep g topo b r s = some (b', r', s')) (hl : r'.length < r.length) :
    Runs g topo b r s b' r' s' := by
  intro n hn
  cases r with
  | nil => simp at hl
  | cons c r =>
    cases n with
    | zero => simp at hn
    | succ n =>
      refine ⟨n, by simp at hl hn; omega, ?_⟩
      rw [composeLoop, h]

theorem runs_blank (b r : Str) (s : Compose) : Runs g topo b (' ' :: r) s (' ' :: b) r s := by
  apply Runs.step
  · simp [composeStep, skipChar]
  · simp

theorem runs_open (b r : Str) (s : Compose) (h : ∃ d r', r = d :: r' ∧ d ≠ ' ') :
    Runs g topo b ('(' :: r) s ('(' :: b) r s := by
  obtain ⟨d, r', rfl, hd⟩ := h
  apply Runs.step
  · have : skipChar b '(' (d :: r') = some true := by
      unfold skipChar
      rw [if_neg (by decide)]
      split
      · simp [hd]
      · simp
    simp [composeStep, this]
  · simp

theorem runs_close (b r : Str) (s s' : Compose) (hb : b.head? ≠ some ' ') (h : s.close = some s') :
    Runs g topo b (')' :: r) s (')' :: b) r s' := by
  apply Runs.step
  · have : skipChar b ')' r = some false := by
      unfold skipChar
      simp
    simp [composeStep, this, hb, h]
  · simp

theorem runs_symbol (hg : g.Lexical) {sym : Str} (hs : sym ∈ g.nonterminals ++ g.terminals)
    {r : Str} (hr : Follow r) (before : Str) (s s' : Compose)
    (h : s.symbol g topo sym ((sym.reverse ++ before)[1]? = some '(') = some s') :
    Runs g topo before (sym ++ r) s (sym.reverse ++ before) r s' := by
  apply Runs.step (step_symbol hg hs hr before s s' h)
  have := List.length_pos_iff.2 (hg sym hs).1
  simp
  omega

theorem terminals_disjoint {s : Str} (h : s ∈ g.terminals) : s ∉ g.nonterminals := by
  unfold Grammar.terminals at h
  simpa using (List.mem_filter.1 h).2

theorem head_symbol (hg : g.Lexical) {sym : Str} (hs : sym ∈ g.nonterminals ++ g.terminals)
    (b : Str) : (sym.reverse ++ b).head? ≠ some ' ' := by
  obtain ⟨hne, hc⟩ := hg sym hs
  intro h
  cases hr : sym.reverse with
  | nil => exact hne (List.reverse_eq_nil_iff.1 hr)
  | cons c cs =>
    rw [hr] at h
    simp at h
    have : c ∈ sym := by
      rw [← List.mem_reverse, hr]
      exact List.mem_cons_self
    exact (hc c this).1 h

/-- A terminal after a blank. -/
theorem runs_terminal (hg : g.Lexical) {sym : Str} (hs : sym ∈ g.terminals) {r : Str}
    (hr : Follow r) (b : Str) (s s' : Compose)
    (h : s.symbol g topo sym false = some s') :
    Runs g topo b (' ' :: (sym ++ r)) s (sym.reverse ++ ' ' :: b) r s' := by
  have hs' : sym ∈ g.nonterminals ++ g.terminals := List.mem_append_right _ hs
  refine (runs_blank b _ s).trans (runs_symbol hg hs' hr _ s s' ?_)
  have : ((sym.reverse ++ ' ' :: b)[1]? = some '(') = False := by
    apply propext
    constructor
    · intro h
      obtain ⟨hne, hc⟩ := hg sym hs'
      have hmem : ∀ x ∈ sym.reverse, x ≠ '(' := fun x hx => (hc x (List.mem_reverse.1 hx)).2.2.2.1
      cases hr : sym.reverse with
      | nil => exact hne (List.reverse_eq_nil_iff.1 hr)
      | cons c cs =>
        rw [hr] at h hmem
        cases cs with
        | nil => simp at h
        | cons d ds =>
          simp at h
          exact hmem d (by simp) h
    · exact False.elim
  simpa [this] using h

/-- A bracket and a nonterminal after a blank. -/
theorem runs_nonterminal (hg : g.Lexical) {A : Str} (hA : A ∈ g.nonterminals) {r : Str}
    (hr : Follow r) (b : Str) (s : Compose) :
    Runs g topo b ('(' :: (A ++ r)) s (A.reverse ++ '(' :: b) r { s with nts := A :: s.nts } := by
  have hs' : A ∈ g.nonterminals ++ g.terminals := List.mem_append_left _ hA
  obtain ⟨hne, hc⟩ := hg A hs'
  refine (runs_open b _ s ?_).trans (runs_symbol hg hs' hr _ s _ ?_)
  · obtain ⟨c, cs, rfl⟩ := List.exists_cons_of_ne_nil hne
    exact ⟨c, cs ++ r, rfl, (hc c List.mem_cons_self).1⟩
  · unfold Compose.symbol
    rw [if_neg (fun h => terminals_disjoint h.1 hA), if_pos hA]

theorem follow_text (f : Forest) {r : Str} (hr : Follow r) : Follow (f.text ++ r) := by
  cases f with
  | nil => exact hr
  | leaf s rest => exact ⟨' ', _, rfl, Or.inl rfl⟩
  | node A kids rest => exact ⟨' ', _, rfl, Or.inl rfl⟩

theorem follow_close (r : Str) : Follow (')' :: r) := ⟨')', r, rfl, Or.inr rfl⟩

/-! ## Trees -/

theorem plain_runs (hg : g.Lexical) (f : Forest) : ∀ (r b : Str) (nts : List Str) (t : Str) (n : ℕ)
    (ts : List (Str × ℕ)) (ps : List Func) (c : Option Func), f.NoTopology topo → f.Over g → Follow r →
    b.head? ≠ some ' ' → ts.length + 1 ≤ nts.length →
    ∃ b', b'.head? ≠ some ' ' ∧ Runs g topo b (f.text ++ r) ⟨nts, (t, n) :: ts, ps, c⟩ b' r
      ⟨nts, (t, n + (f.functions topo).length) :: ts, (f.functions topo).reverse ++ ps, c⟩ := by
  induction f with
  | nil => intro r b nts t n ts ps c _ _ _ hb _; exact ⟨b, hb, Runs.refl _ _ _⟩
  | leaf s rest ih =>
    intro r b nts t n ts ps c hp ho hr hb hl
    have hrun := runs_terminal (topo := topo) hg ho.1 (follow_text rest hr) b
      ⟨nts, (t, n) :: ts, ps, c⟩ ⟨nts, (t, n + 1) :: ts, .op s :: ps, c⟩ (by
        unfold Compose.symbol
        rw [if_pos ⟨ho.1, by simp⟩, hp.1]
        rfl)
    obtain ⟨b', hb', h2⟩ := ih r (s.reverse ++ ' ' :: b) nts t (n + 1) ts (.op s :: ps) c hp.2 ho.2 hr
      (head_symbol hg (List.mem_append_right _ ho.1) _) hl
    refine ⟨b', hb', ?_⟩
    have htxt : (Forest.leaf s rest).text ++ r = ' ' :: (s ++ (rest.text ++ r)) := by
      simp [Forest.text]
    rw [htxt]
    have := hrun.trans h2
    simp only [Forest.functions, hp.1, Bool.false_eq_true, if_false, List.length_cons,
      List.reverse_cons, List.append_assoc, List.singleton_append]
    rw [show n + ((rest.functions topo).length + 1) = n + 1 + (rest.functions topo).length by omega]
    exact this
  | node A kids rest ihk ihr =>
    intro r b nts t n ts ps c hp ho hr hb hl
    have htxt : (Forest.node A kids rest).text ++ r =
        ' ' :: '(' :: (A ++ (kids.text ++ (')' :: (rest.text ++ r)))) := by
      simp [Forest.text]
    rw [htxt]
    have h1 := (runs_blank (g := g) (topo := topo) b
      ('(' :: (A ++ (kids.text ++ (')' :: (rest.text ++ r))))) ⟨nts, (t, n) :: ts, ps, c⟩).trans
      (runs_nonterminal hg ho.1 (follow_text kids (follow_close _)) _ _)
    obtain ⟨b1, hb1, h2⟩ := ihk (')' :: (rest.text ++ r)) (A.reverse ++ '(' :: ' ' :: b) (A :: nts) t n
      ts ps c hp.1 ho.2.1 (follow_close _) (head_symbol hg (List.mem_append_left _ ho.1) _)
      (by simp; omega)
    have h3 := runs_close (g := g) (topo := topo) b1 (rest.text ++ r)
      ⟨A :: nts, (t, n + (kids.functions topo).length) :: ts, (kids.functions topo).reverse ++ ps, c⟩
      ⟨nts, (t, n + (kids.functions topo).length) :: ts, (kids.functions topo).reverse ++ ps, c⟩ hb1 (by
        unfold Compose.close
        rw [if_neg (by simp; omega)])
    obtain ⟨b2, hb2, h4⟩ := ihr r (')' :: b1) nts t (n + (kids.functions topo).length) ts
      ((kids.functions topo).reverse ++ ps) c hp.2 ho.2.2 hr (by simp) hl
    refine ⟨b2, hb2, ?_⟩
    have := ((h1.trans h2).trans h3).trans h4
    simp only [Forest.functions, List.length_append, List.reverse_append, List.append_assoc]
    rw [← Nat.add_assoc]
    exact this

theorem single_runs (hg : g.Lexical) {f : Forest} (hf : f.Single topo) :
    ∃ t as, f.functions topo = [.comp t as] ∧ ∀ (r b : Str) (nts : List Str)
    (ts : List (Str × ℕ)) (ps : List Func) (c : Option Func), f.Over g → Follow r →
    b.head? ≠ some ' ' → ts.length + 1 ≤ nts.length →
    ∃ b', b'.head? ≠ some ' ' ∧ Runs g topo b (f.text ++ r) ⟨nts, ts, ps, c⟩ b' r
      ⟨nts, (t, as.length) :: ts, as.reverse ++ ps, c⟩ := by
  induction hf with
  | @app t rest ht hrest =>
    refine ⟨t, rest.functions topo, by simp [Forest.functions, ht], ?_⟩
    intro r b nts ts ps c ho hr hb hl
    have hrun := runs_terminal (topo := topo) hg ho.1 (follow_text rest hr) b
      ⟨nts, ts, ps, c⟩ ⟨nts, (t, 0) :: ts, ps, c⟩ (by
        unfold Compose.symbol
        rw [if_pos ⟨ho.1, by simp⟩, ht]
        rfl)
    obtain ⟨b', hb', h2⟩ := plain_runs hg rest r (t.reverse ++ ' ' :: b) nts t 0 ts ps c hrest ho.2 hr
      (head_symbol hg (List.mem_append_right _ ho.1) _) hl
    refine ⟨b', hb', ?_⟩
    have htxt : (Forest.leaf t rest).text ++ r = ' ' :: (t ++ (rest.text ++ r)) := by
      simp [Forest.text]
    rw [htxt]
    simpa using hrun.trans h2
  | @chain A kids _ ih =>
    obtain ⟨t, as, hfun, hk⟩ := ih
    refine ⟨t, as, by simp [Forest.functions, hfun], ?_⟩
    intro r b nts ts ps c ho hr hb hl
    have htxt : (Forest.node A kids .nil).text ++ r =
        ' ' :: '(' :: (A ++ (kids.text ++ (')' :: r))) := by
      simp [Forest.text]
    rw [htxt]
    have h1 := (runs_blank (g := g) (topo := topo) b
      ('(' :: (A ++ (kids.text ++ (')' :: r)))) ⟨nts, ts, ps, c⟩).trans
      (runs_nonterminal hg ho.1 (follow_text kids (follow_close _)) _ _)
    obtain ⟨b1, hb1, h2⟩ := hk (')' :: r) (A.reverse ++ '(' :: ' ' :: b) (A :: nts) ts ps c ho.2.1
      (follow_close _) (head_symbol hg (List.mem_append_left _ ho.1) _) (by simp; omega)
    have h3 := runs_close (g := g) (topo := topo) b1 r
      ⟨A :: nts, (t, as.length) :: ts, as.reverse ++ ps, c⟩
      ⟨nts, (t, as.length) :: ts, as.reverse ++ ps, c⟩ hb1 (by
        unfold Compose.close
        rw [if_neg (by simp; omega)])
    exact ⟨_, by simp, (h1.trans h2).trans h3⟩

theorem close_apply (A : Str) (nts : List Str) (t t' : Str) (n : ℕ) (ts : List (Str × ℕ))
    (as ps : List Func) (c : Option Func) (hl : nts.length = ts.length + 1) :
    (Compose.mk (A :: nts) ((t', as.length) :: (t, n) :: ts) (as.reverse ++ ps) c).close =
      some ⟨nts, (t, n + 1) :: ts, .comp t' as :: ps, some (.comp t' as)⟩ := by
  have htake : (as.reverse ++ ps).take as.length = as.reverse := by
    rw [← List.length_reverse (as := as), List.take_left]
  have hdrop : (as.reverse ++ ps).drop as.length = ps := by
    rw [← List.length_reverse (as := as), List.drop_left]
  unfold Compose.close
  simp only [List.length_cons, hl, if_true, Compose.apply, List.length_append, List.length_reverse]
  rw [if_neg (by omega)]
  simp only [htake, hdrop, List.reverse_reverse, Compose.count]
  rfl

theorem args_runs (hg : g.Lexical) {f : Forest} (hf : f.Args topo) : ∀ (r b : Str) (nts : List Str)
    (t : Str) (n : ℕ) (ts : List (Str × ℕ)) (ps : List Func) (c : Option Func), f.Over g → Follow r →
    b.head? ≠ some ' ' → nts.length = ts.length + 1 →
    ∃ b' c', b'.head? ≠ some ' ' ∧ Runs g topo b (f.text ++ r) ⟨nts, (t, n) :: ts, ps, c⟩ b' r
      ⟨nts, (t, n + (f.functions topo).length) :: ts, (f.functions topo).reverse ++ ps, c'⟩ := by
  induction hf with
  | nil => intro r b nts t n ts ps c _ _ hb _; exact ⟨b, c, hb, Runs.refl _ _ _⟩
  | @leaf s rest hs _ ih =>
    intro r b nts t n ts ps c ho hr hb hl
    have hrun := runs_terminal (topo := topo) hg ho.1 (follow_text rest hr) b
      ⟨nts, (t, n) :: ts, ps, c⟩ ⟨nts, (t, n + 1) :: ts, .op s :: ps, c⟩ (by
        unfold Compose.symbol
        rw [if_pos ⟨ho.1, by simp⟩, hs]
        rfl)
    obtain ⟨b', c', hb', h2⟩ := ih r (s.reverse ++ ' ' :: b) nts t (n + 1) ts (.op s :: ps) c ho.2 hr
      (head_symbol hg (List.mem_append_right _ ho.1) _) hl
    refine ⟨b', c', hb', ?_⟩
    have htxt : (Forest.leaf s rest).text ++ r = ' ' :: (s ++ (rest.text ++ r)) := by
      simp [Forest.text]
    rw [htxt]
    have := hrun.trans h2
    simp only [Forest.functions, hs, Bool.false_eq_true, if_false, List.length_cons,
      List.reverse_cons, List.append_assoc, List.singleton_append]
    rw [show n + ((rest.functions topo).length + 1) = n + 1 + (rest.functions topo).length by omega]
    exact this
  | @plain A kids rest hk _ ih =>
    intro r b nts t n ts ps c ho hr hb hl
    have htxt : (Forest.node A kids rest).text ++ r =
        (Forest.node A kids .nil).text ++ (rest.text ++ r) := by
      simp [Forest.text]
    rw [htxt]
    obtain ⟨b1, hb1, h1⟩ := plain_runs (topo := topo) hg (.node A kids .nil) (rest.text ++ r) b nts t n
      ts ps c ⟨hk, trivial⟩ ⟨ho.1, ho.2.1, trivial⟩ (follow_text rest hr) hb (by omega)
    obtain ⟨b', c', hb', h2⟩ := ih r b1 nts t (n + ((Forest.node A kids .nil).functions topo).length) ts
      (((Forest.node A kids .nil).functions topo).reverse ++ ps) c ho.2.2 hr hb1 hl
    refine ⟨b', c', hb', ?_⟩
    have := h1.trans h2
    simp only [Forest.functions, List.append_nil] at this
    simp only [Forest.functions, List.length_append, List.reverse_append, List.append_assoc]
    rw [← Nat.add_assoc]
    exact this
  | @app A t' args rest ht _ _ iha ihr =>
    intro r b nts t n ts ps c ho hr hb hl
    have htxt : (Forest.node A (.leaf t' args) rest).text ++ r =
        ' ' :: '(' :: (A ++ (' ' :: (t' ++ (args.text ++ (')' :: (rest.text ++ r)))))) := by
      simp [Forest.text]
    rw [htxt]
    have hot := ho.2.1.1
    have h1 := (runs_blank (g := g) (topo := topo) b
      ('(' :: (A ++ (' ' :: (t' ++ (args.text ++ (')' :: (rest.text ++ r)))))))
      ⟨nts, (t, n) :: ts, ps, c⟩).trans
      (runs_nonterminal hg ho.1 ⟨' ', _, rfl, Or.inl rfl⟩ _ _)
    have h2 := runs_terminal (topo := topo) hg hot (follow_text args (follow_close (rest.text ++ r)))
      (A.reverse ++ '(' :: ' ' :: b) ⟨A :: nts, (t, n) :: ts, ps, c⟩
      ⟨A :: nts, (t', 0) :: (t, n) :: ts, ps, c⟩ (by
        unfold Compose.symbol
        rw [if_pos ⟨hot, by simp⟩, ht]
        rfl)
    obtain ⟨b1, c1, hb1, h3⟩ := iha (')' :: (rest.text ++ r))
      (t'.reverse ++ ' ' :: (A.reverse ++ '(' :: ' ' :: b)) (A :: nts) t' 0 ((t, n) :: ts) ps c
      ho.2.1.2 (follow_close _) (head_symbol hg (List.mem_append_right _ hot) _) (by simp; omega)
    rw [Nat.zero_add] at h3
    have h4 := runs_close (g := g) (topo := topo) b1 (rest.text ++ r) _ _ hb1
      (close_apply A nts t t' n ts (args.functions topo) ps c1 hl)
    obtain ⟨b', c', hb', h5⟩ := ihr r (')' :: b1) nts t (n + 1) ts
      (.comp t' (args.functions topo) :: ps) (some (.comp t' (args.functions topo))) ho.2.2 hr
      (by simp) hl
    refine ⟨b', c', hb', ?_⟩
    have := (((h1.trans h2).trans h3).trans h4).trans h5
    simp only [Forest.functions, ht, if_true, List.length_cons, List.reverse_cons,
      List.append_assoc, List.singleton_append]
    rw [show n + ((rest.functions topo).length + 1) = n + 1 + (rest.functions topo).length by omega]
    exact this
  | @single A kids rest hk _ ih =>
    intro r b nts t n ts ps c ho hr hb hl
    obtain ⟨t', as, hfun, hkr⟩ := single_runs hg hk
    have htxt : (Forest.node A kids rest).text ++ r =
        ' ' :: '(' :: (A ++ (kids.text ++ (')' :: (rest.text ++ r)))) := by
      simp [Forest.text]
    rw [htxt]
    have h1 := (runs_blank (g := g) (topo := topo) b
      ('(' :: (A ++ (kids.text ++ (')' :: (rest.text ++ r))))) ⟨nts, (t, n) :: ts, ps, c⟩).trans
      (runs_nonterminal hg ho.1 (follow_text kids (follow_close _)) _ _)
    obtain ⟨b1, hb1, h2⟩ := hkr (')' :: (rest.text ++ r)) (A.reverse ++ '(' :: ' ' :: b) (A :: nts)
      ((t, n) :: ts) ps c ho.2.1 (follow_close _) (head_symbol hg (List.mem_append_left _ ho.1) _)
      (by simp; omega)
    have h3 := runs_close (g := g) (topo := topo) b1 (rest.text ++ r) _ _ hb1
      (close_apply A nts t t' n ts as ps c hl)
    obtain ⟨b', c', hb', h4⟩ := ih r (')' :: b1) nts t (n + 1) ts
      (.comp t' as :: ps) (some (.comp t' as)) ho.2.2 hr (by simp) hl
    refine ⟨b', c', hb', ?_⟩
    have := ((h1.trans h2).trans h3).trans h4
    simp only [Forest.functions, hfun, List.length_cons, List.reverse_cons,
      List.append_assoc, List.singleton_append]
    rw [show n + ((rest.functions topo).length + 1) = n + 1 + (rest.functions topo).length by omega]
    exact this

theorem close_last (A : Str) (t' : Str) (as : List Func) (c : Option Func) :
    (Compose.mk [A] [(t', as.length)] (as.reverse ++ []) c).close =
      some ⟨[], [], [], some (.comp t' as)⟩ := by
  have htake : as.reverse.take as.length = as.reverse := by
    rw [← List.length_reverse (as := as), List.take_length]
  unfold Compose.close
  simp [Compose.apply, htake]

/-! ## Whole trees -/

theorem compose_of_runs {desc b' : Str} {s' : Compose} {f : Func}
    (h : Runs g topo [] desc ⟨[], [], [], none⟩ b' [] s') (hs : s'.topos = [])
    (hc : s'.composed = some f) : compose g topo desc = some f := by
  obtain ⟨n', _, e⟩ := h desc.length le_rfl
  unfold compose
  rw [e]
  cases n' <;> simp [composeLoop, hs, hc]

theorem compose_app (hg : g.Lexical) {A t : Str} {args : Forest} (hA : A ∈ g.nonterminals)
    (ht : topo t = true) (hargs : args.Args topo) (ho : (Forest.leaf t args).Over g) :
    compose g topo (treeText A (.leaf t args)) = some (.comp t (args.functions topo)) := by
  have htxt : treeText A (.leaf t args) = '(' :: (A ++ (' ' :: (t ++ (args.text ++ [')'])))) := by
    simp [treeText, Forest.text]
  rw [htxt]
  have h1 := runs_nonterminal (topo := topo) hg hA
    (r := ' ' :: (t ++ (args.text ++ [')']))) ⟨' ', _, rfl, Or.inl rfl⟩ [] ⟨[], [], [], none⟩
  have h2 := runs_terminal (topo := topo) hg ho.1 (follow_text args (follow_close []))
    (A.reverse ++ ['(']) ⟨[A], [], [], none⟩ ⟨[A], [(t, 0)], [], none⟩ (by
      unfold Compose.symbol
      rw [if_pos ⟨ho.1, by simp⟩, ht]
      rfl)
  obtain ⟨b1, c1, hb1, h3⟩ := args_runs hg hargs [')'] (t.reverse ++ ' ' :: (A.reverse ++ ['(']))
    [A] t 0 [] [] none ho.2 (follow_close _) (head_symbol hg (List.mem_append_right _ ho.1) _) rfl
  rw [Nat.zero_add] at h3
  have h4 := runs_close (g := g) (topo := topo) b1 [] _ _ hb1
    (close_last A t (args.functions topo) c1)
  exact compose_of_runs (((h1.trans h2).trans h3).trans h4) rfl rfl

theorem compose_single (hg : g.Lexical) {A : Str} {kids : Forest} (hA : A ∈ g.nonterminals)
    (hk : kids.Single topo) (ho : kids.Over g) :
    ∃ f, kids.functions topo = [f] ∧ compose g topo (treeText A kids) = some f := by
  obtain ⟨t, as, hfun, hrun⟩ := single_runs hg hk
  refine ⟨.comp t as, hfun, ?_⟩
  have htxt : treeText A kids = '(' :: (A ++ (kids.text ++ [')'])) := by
    simp [treeText]
  rw [htxt]
  have h1 := runs_nonterminal (topo := topo) hg hA
    (r := kids.text ++ [')']) (follow_text kids (follow_close [])) [] ⟨[], [], [], none⟩
  obtain ⟨b1, hb1, h2⟩ := hrun [')'] (A.reverse ++ ['(']) [A] [] [] none ho (follow_close _)
    (head_symbol hg (List.mem_append_left _ hA) _) le_rfl
  have h3 := runs_close (g := g) (topo := topo) b1 [] _ _ hb1 (close_last A t as none)
  exact compose_of_runs ((h1.trans h2).trans h3) rfl rfl

/-! ## Trees of a grammar -/

theorem over_of_derives (hd : ∀ p ∈ g.prods, ∀ s, .t s ∈ p.rhs → s ∈ g.terminals) {syms : List Sym}
    {f : Forest} (h : Derives g.Legal syms f) : (∀ s, .t s ∈ syms → s ∈ g.terminals) → f.Over g := by
  induction h with
  | nil => intro _; trivial
  | leaf _ ih =>
    intro hs
    exact ⟨hs _ List.mem_cons_self, ih fun s h => hs s (List.mem_cons_of_mem _ h)⟩
  | node hok _ _ ihk ihr =>
    intro hs
    refine ⟨?_, ihk (hd _ hok), ihr fun s h => hs s (List.mem_cons_of_mem _ h)⟩
    simp only [Grammar.nonterminals, Grammar.lhss, List.mem_dedup, List.mem_map]
    exact ⟨_, hok, rfl⟩

theorem args_of_derives
    (hp : ∀ p ∈ g.prods, (∃ t args, p.rhs = .t t :: args ∧ topo t = true ∧
        ∀ s, .t s ∈ args → topo s = false) ∨ ∃ s, p.rhs = [.t s] ∧ topo s = false)
    {syms : List Sym} {f : Forest} (h : Derives g.Legal syms f) :
    ((∀ s, .t s ∈ syms → topo s = false) → f.Args topo) ∧
    (∀ t args, syms = .t t :: args → (∀ s, .t s ∈ args → topo s = false) →
      ∃ fs, f = .leaf t fs ∧ fs.Args topo) := by
  induction h with
  | nil => exact ⟨fun _ => .nil, fun t args h => by cases h⟩
  | @leaf s syms f _ ih =>
    refine ⟨fun h => .leaf (h _ List.mem_cons_self)
      (ih.1 fun s hs => h s (List.mem_cons_of_mem _ hs)), ?_⟩
    intro t args he ha
    injection he with h1 h2
    injection h1 with h1
    subst h1 h2
    exact ⟨_, rfl, ih.1 ha⟩
  | @node A rhs kids syms f hok hk _ ihk ihr =>
    refine ⟨fun h => ?_, fun t args he => by cases he⟩
    have hrest := ihr.1 fun s hs => h s (List.mem_cons_of_mem _ hs)
    rcases hp _ hok with ⟨t, args, he, ht, ha⟩ | ⟨s, he, hs⟩
    · obtain ⟨fs, rfl, hfs⟩ := ihk.2 t args he ha
      exact .app ht hfs hrest
    · simp only at he
      subst he
      cases hk with
      | leaf hk' =>
        cases hk' with
        | nil => exact .plain ⟨hs, trivial⟩ hrest

end Verif.Gram
