import Verif.Arch.ParamModel

/-!
# C122, C123: architecture parameters

C122: what an architecture parameter holds. C123: an architecture in the file of a trial.
-/

namespace Verif.Arch

open Neps (PyVal PyErr)

variable {G : Type}

/-! ## What a user can do with a parameter -/

/-- An operation on an architecture parameter. -/
inductive ParamOp
  | set (s : String)             -- `set_value(s)`
  | load (s : String)            -- `load_from(s)`
  | readId
  | readValue
  | setDefault (d : Option String)
  | build (ns : List Nat)        -- `to_pytorch`
  | refused (v : PyVal)          -- `set_value` with something that is no string

/-- The parameter after an operation, whether it raises or not. -/
def ParamOp.apply (K : Kind G) (p : Param G) : ParamOp → Param G
  | .set s => (Param.setValue K (.str s) p).2
  | .load s => (Param.loadFrom K (.str s) p).2
  | .readId => p.getId.2
  | .readValue => (Param.getValue K p).2
  | .setDefault d => p.setDefault d
  | .build ns => p.build ns
  | .refused v => match v with | .str _ => p | v => (Param.setValue K v p).2

/-- The last identifier that was handed over, if there is one. -/
def lastGiven : List ParamOp → Option String
  | [] => none
  | .set s :: ops | .load s :: ops => (lastGiven ops).or (some s)
  | _ :: ops => lastGiven ops

/-- Every identifier that is handed over is not empty. -/
def NoEmpty (ops : List ParamOp) : Prop := ∀ o ∈ ops, o ≠ .set "" ∧ o ≠ .load ""

/-! ## The invariant -/

/-- The parameter stands for `s`. -/
structure Stands (K : Kind G) (s : String) (p : Param G) : Prop where
  ne : s ≠ ""
  tree : p.stringTree = .str s
  fid : p.functionId = .str "" ∨ p.functionId = .str s
  val : ∀ g, p.value = some g → K.repr s = .ok g

/-- The parameter is empty. -/
structure Fresh (p : Param G) : Prop where
  tree : p.stringTree = .str ""
  fid : p.functionId = .str ""
  val : p.value = none

theorem Stands.getId {K : Kind G} {s p} (h : Stands K s p) :
    p.getId.1 = .ok (.str s) ∧ Stands K s p.getId.2 ∧ p.getId.2.value = p.value := by
  unfold Param.getId
  have hs : (PyVal.str s = .str "") = False := by simp [h.ne]
  rcases h.fid with hf | hf
  · rw [if_pos (Or.inr hf), h.tree, if_neg (by simp [h.ne])]
    exact ⟨rfl, ⟨h.ne, rfl, Or.inr rfl, h.val⟩, rfl⟩
  · rw [if_neg (by rw [hf]; simp [h.ne])]
    exact ⟨by rw [hf], h, rfl⟩

theorem Stands.getValue {K : Kind G} {s p} (h : Stands K s p) :
    (Param.getValue K p).1 = K.repr s ∧ Stands K s (Param.getValue K p).2 ∧
      (∀ g, K.repr s = .ok g → (Param.getValue K p).2.value = some g) := by
  unfold Param.getValue
  cases hv : p.value with
  | some g => exact ⟨(h.val g hv).symm, h, fun g' hg => by
      have := h.val g hv
      simp only
      rw [hv]
      rw [this] at hg
      simpa using hg⟩
  | none =>
    simp only
    cases hn : K.newRepr with
    | true =>
      obtain ⟨h1, h2, h3⟩ := h.getId
      rcases hg : p.getId with ⟨r, q⟩
      rw [hg] at h1 h2 h3
      simp only at h1 h2 h3
      subst h1
      simp only [Kind.reprVal, if_true]
      cases hr : K.repr s with
      | error e => exact ⟨rfl, h2, by simp⟩
      | ok g => exact ⟨rfl, ⟨h2.ne, h2.tree, h2.fid, fun g' hg' => by
          simp only [Option.some.injEq] at hg'; rw [hr, hg']⟩, by simp⟩
    | false =>
      simp only [Kind.reprVal, h.tree, Bool.false_eq_true, if_false]
      cases hr : K.repr s with
      | error e => exact ⟨rfl, h, by simp⟩
      | ok g => exact ⟨rfl, ⟨h.ne, rfl, h.fid, fun g' hg' => by
          simp only [Option.some.injEq] at hg'; rw [hr, hg']⟩, by simp⟩

/-- The result of `create_from_id`. -/
theorem createFromId_stands (K : Kind G) {s : String} (hs : s ≠ "") (p : Param G) :
    Stands K s (Param.createFromId K (.str s) p).2 ∧
    ((Param.createFromId K (.str s) p).1 = (K.repr s).map (fun _ => ())) ∧
    (∀ g, K.repr s = .ok g → (Param.createFromId K (.str s) p).2.value = some g) := by
  unfold Param.createFromId
  simp only [Param.reset, Param.getId, reduceCtorEq, false_or, PyVal.str.injEq, hs, if_false]
  have hst : Stands K s (⟨.str s, .str s, none, [], p.normalized, p.default⟩ : Param G) := ⟨hs, rfl, Or.inr rfl, by simp⟩
  generalize (⟨.str s, .str s, none, [], p.normalized, p.default⟩ : Param G) = q at hst ⊢
  obtain ⟨h1, h2, h3⟩ := hst.getValue
  rcases hg : Param.getValue K q with ⟨r, q'⟩
  rw [hg] at h1 h2 h3
  simp only at h1 h2 h3
  subst h1
  cases hr : K.repr s with
  | error e => exact ⟨h2, by simp [Except.map], by simp⟩
  | ok g => exact ⟨h2, by simp [Except.map], by
      intro g' hg'
      simp only [Except.ok.injEq] at hg'
      exact hg' ▸ h3 g hr⟩

/-- The graph is there if there is one. -/
def Full (K : Kind G) (s : String) (p : Param G) : Prop := ∀ g, K.repr s = .ok g → p.value = some g

theorem Stands.apply {K : Kind G} {s p} (h : Stands K s p) (o : ParamOp)
    (ho : o ≠ .set "" ∧ o ≠ .load "") :
    Stands K ((lastGiven [o]).getD s) (o.apply K p) ∧
      (Full K s p → Full K ((lastGiven [o]).getD s) (o.apply K p)) := by
  cases o with
  | set s' =>
    have := createFromId_stands K (s := s') (by rintro rfl; exact ho.1 rfl)
    exact ⟨(this _).1, fun _ => (this _).2.2⟩
  | load s' =>
    have := createFromId_stands K (s := s') (by rintro rfl; exact ho.2 rfl)
    exact ⟨(this _).1, fun _ => (this _).2.2⟩
  | readId => exact ⟨h.getId.2.1, fun f g hg => h.getId.2.2.trans (f g hg)⟩
  | readValue => exact ⟨h.getValue.2.1, fun _ => h.getValue.2.2⟩
  | setDefault d => exact ⟨⟨h.ne, h.tree, h.fid, h.val⟩, id⟩
  | build ns =>
    have := h.getId.2.1
    exact ⟨⟨this.ne, this.tree, this.fid, this.val⟩, fun f g hg => h.getId.2.2.trans (f g hg)⟩
  | refused v => cases v <;> exact ⟨h, id⟩

theorem Fresh.getId {p : Param G} (h : Fresh p) : p.getId = (.error .valueError, p) := by
  unfold Param.getId
  rw [if_pos (Or.inr h.fid), if_pos h.tree]

theorem lastGiven_cons (o : ParamOp) (ops : List ParamOp) :
    lastGiven (o :: ops) = (lastGiven ops).or (lastGiven [o]) := by
  cases o <;> simp [lastGiven]

theorem stands_run {K : Kind G} (ops : List ParamOp) (hn : NoEmpty ops) {s p}
    (h : Stands K s p) (f : Full K s p) :
    Stands K ((lastGiven ops).getD s) (ops.foldl (ParamOp.apply K) p) ∧
      Full K ((lastGiven ops).getD s) (ops.foldl (ParamOp.apply K) p) := by
  induction ops generalizing s p with
  | nil => exact ⟨h, f⟩
  | cons o ops ih =>
    obtain ⟨h', f'⟩ := h.apply o (hn o (by simp))
    have := ih (fun o' ho' => hn o' (by simp [ho'])) h' (f' f)
    rw [lastGiven_cons]
    cases hl : lastGiven ops with
    | none => simpa [hl] using this
    | some t => simpa [hl] using this

/-- A fresh parameter stands for the first identifier it is given. -/
theorem first_stands {K : Kind G} (ops : List ParamOp) (hn : NoEmpty ops) {s}
    (hs : lastGiven ops = some s) (hno : ∃ e, K.repr "" = .error e) :
    ∀ p : Param G, Fresh p → Stands K s (ops.foldl (ParamOp.apply K) p) ∧
      Full K s (ops.foldl (ParamOp.apply K) p) := by
  induction ops with
  | nil => simp [lastGiven] at hs
  | cons o ops ih =>
    intro p hp
    by_cases hg : lastGiven [o] = none
    · have hp' : Fresh (o.apply K p) := by
        cases o with
        | set s' => simp [lastGiven] at hg
        | load s' => simp [lastGiven] at hg
        | readId => simp only [ParamOp.apply, hp.getId]; exact hp
        | readValue =>
          obtain ⟨e, h⟩ := hno
          simp only [ParamOp.apply, Param.getValue, hp.val]
          cases hn : K.newRepr
          · simp only [Bool.false_eq_true, if_false, hp.tree, Kind.reprVal, h]; exact hp
          · simp only [if_true, hp.getId]; exact hp
        | setDefault d => exact ⟨hp.tree, hp.fid, hp.val⟩
        | build ns =>
          simp only [ParamOp.apply, Param.build, hp.getId]
          exact ⟨hp.tree, hp.fid, hp.val⟩
        | refused v => cases v <;> exact hp
      rw [lastGiven_cons, hg, Option.or_none] at hs
      exact ih (fun o' ho' => hn o' (by simp [ho'])) hs _ hp'
    · obtain ⟨s', hs'⟩ := Option.ne_none_iff_exists'.mp hg
      have hst : Stands K s' (o.apply K p) ∧ Full K s' (o.apply K p) := by
        have ho := hn o (by simp)
        cases o with
        | set s'' =>
          simp only [lastGiven, Option.none_or, Option.some.injEq] at hs'
          subst hs'
          have := createFromId_stands K (s := s'') (by rintro rfl; exact ho.1 rfl)
          exact ⟨(this _).1, (this _).2.2⟩
        | load s'' =>
          simp only [lastGiven, Option.none_or, Option.some.injEq] at hs'
          subst hs'
          have := createFromId_stands K (s := s'') (by rintro rfl; exact ho.2 rfl)
          exact ⟨(this _).1, (this _).2.2⟩
        | readId => simp [lastGiven] at hs'
        | readValue => simp [lastGiven] at hs'
        | setDefault d => simp [lastGiven] at hs'
        | build ns => simp [lastGiven] at hs'
        | refused v => simp [lastGiven] at hs'
      have := stands_run ops (fun o' ho' => hn o' (by simp [ho'])) hst.1 hst.2
      rw [lastGiven_cons, hs'] at hs
      cases hl : lastGiven ops with
      | none =>
        simp only [hl, Option.none_or, Option.some.injEq] at hs
        subst hs
        simpa [hl] using this
      | some t =>
        simp only [hl, Option.some_or, Option.some.injEq] at hs
        subst hs
        simpa [hl] using this

theorem fresh_new : Fresh ({} : Param G) := ⟨rfl, rfl, rfl⟩

theorem Stands.clone {K : Kind G} {s p g} (h : Stands K s p) (f : Full K s p)
    (hr : K.repr s = .ok g) : Stands K s p.clone ∧ Full K s p.clone := by
  have hv := f g hr
  simp only [Param.clone, hv, Option.isSome_some, if_true]
  refine ⟨⟨h.ne, h.tree, h.fid, fun g' hg' => ?_⟩, fun g' hg' => ?_⟩
  · simp only [Option.some.injEq] at hg'; rw [hr, hg']
  · rw [hr] at hg'; simpa using hg'

/-! ## C122 -/

/-- **C122**: whatever was done with an architecture parameter, its identifier is the last one it was
given and its value is the graph of that identifier (or the exception this graph raises). `set_value`
and `load_from` raise exactly if there is no such graph. -/
theorem C122_history (K : Kind G) (hK : ∃ e, K.repr "" = .error e) (ops : List ParamOp)
    (hn : NoEmpty ops) (s : String) (hs : lastGiven ops = some s) :
    ∃ p : Param G, ops.foldl (ParamOp.apply K) {} = p ∧
      p.getId.1 = .ok (.str s) ∧ (Param.getValue K p).1 = K.repr s ∧
      (∀ t ≠ "", (Param.setValue K (.str t) p).1 = (K.repr t).map (fun _ => ()) ∧
        (Param.loadFrom K (.str t) p).1 = (K.repr t).map (fun _ => ())) := by
  obtain ⟨h, _⟩ := first_stands ops hn hs hK _ (fresh_new (G := G))
  refine ⟨_, rfl, h.getId.1, h.getValue.1, fun t ht => ⟨?_, (createFromId_stands K ht _).2.1⟩⟩
  exact (createFromId_stands K ht _).2.1

/-- **C122**, copies: a copy has the identifier and the graph of the original, and so has a parameter
that is loaded from the original; the original keeps its own. -/
theorem C122_copies (K : Kind G) (hK : ∃ e, K.repr "" = .error e) (ops : List ParamOp)
    (hn : NoEmpty ops) (s : String) (g : G) (hs : lastGiven ops = some s) (hr : K.repr s = .ok g) :
    ∃ p : Param G, ops.foldl (ParamOp.apply K) {} = p ∧
      p.clone.getId.1 = .ok (.str s) ∧ (Param.getValue K p.clone).1 = .ok g ∧
      (∀ q : Param G, ∃ q', Param.loadFromParam K p q = (.ok (), q') ∧
        q'.getId.1 = .ok (.str s) ∧ (Param.getValue K q').1 = .ok g) := by
  obtain ⟨h, f⟩ := first_stands ops hn hs hK _ (fresh_new (G := G))
  obtain ⟨hc, _⟩ := h.clone f hr
  refine ⟨_, rfl, hc.getId.1, hc.getValue.1.trans hr, fun q => ?_⟩
  obtain ⟨h1, h2, h3⟩ := createFromId_stands K h.ne q
  refine ⟨(Param.createFromId K (.str s) q).2, ?_, h1.getId.1, h1.getValue.1.trans hr⟩
  unfold Param.loadFromParam
  rcases hg : (List.foldl (ParamOp.apply K) {} ops).getId with ⟨r, p'⟩
  have := h.getId.1
  rw [hg] at this
  simp only at this
  subst this
  rw [hr] at h2
  simp only [Except.map] at h2
  exact Prod.ext h2 rfl

/-- **C122**, sampling and offspring: sampling gives a parameter with the sampled tree as identifier
and its graph, and raises if there is none; so does making an instance of a mutated or crossed-over
string. -/
theorem C122_sampled (K : Kind G) (p : Param G) (tree : String) (ht : tree ≠ "") :
    (∀ e, K.repr tree = .error e →
      Param.sample K tree p = .error e ∧ newInstance K tree = .error e) ∧
    (∀ g, K.repr tree = .ok g → ∃ q q', Param.sample K tree p = .ok q ∧ newInstance K tree = .ok q' ∧
      q.getId.1 = .ok (.str tree) ∧ (Param.getValue K q).1 = .ok g ∧
      q'.getId.1 = .ok (.str tree) ∧ (Param.getValue K q').1 = .ok g) := by
  have hst : Stands K tree { p.clone.reset with stringTree := .str tree } :=
    ⟨ht, rfl, Or.inl rfl, by simp [Param.reset]⟩
  obtain ⟨h1, h2, h3⟩ := hst.getValue
  obtain ⟨c1, c2, c3⟩ := createFromId_stands K ht ({} : Param G)
  rcases hg : Param.getValue K { p.clone.reset with stringTree := .str tree } with ⟨r, q⟩
  rcases hc : Param.createFromId K (.str tree) ({} : Param G) with ⟨r', q'⟩
  rw [hg] at h1 h2 h3
  rw [hc] at c1 c2 c3
  simp only at h1 h2 h3 c1 c2 c3
  subst h1 c2
  constructor
  · intro e he
    rw [he] at hg hc
    simp only [Except.map] at hc
    simp only [Param.sample, hg, newInstance, Param.loadFrom, hc, and_self]
  · intro g he
    rw [he] at hg hc
    simp only [Except.map] at hc
    exact ⟨q, q', by simp only [Param.sample, hg], by simp only [newInstance, Param.loadFrom, hc],
      h2.getId.1, h2.getValue.1.trans he, c1.getId.1, c1.getValue.1.trans he⟩

/-- **C122 (partial)**, comparison: two parameters that were given identifiers are equal exactly if
the identifiers are. Missing: parameters that were not (`C122_compare_fails`). -/
theorem C122_equal_partial (K : Kind G) (hK : ∃ e, K.repr "" = .error e) (ops ops' : List ParamOp)
    (hn : NoEmpty ops) (hn' : NoEmpty ops') (s s' : String) (hs : lastGiven ops = some s)
    (hs' : lastGiven ops' = some s') :
    Param.eq (ops.foldl (ParamOp.apply K) ({} : Param G)) (ops'.foldl (ParamOp.apply K) {}) =
      .ok (decide (s = s')) := by
  obtain ⟨h, _⟩ := first_stands ops hn hs hK _ (fresh_new (G := G))
  obtain ⟨h', _⟩ := first_stands ops' hn' hs' hK _ (fresh_new (G := G))
  simp only [Param.eq, h.getId.1, h'.getId.1, PyVal.str.injEq]

/-- A kind of architectures: a string is valid if it begins with a bracket; its graph is its length.
-/
def demoKind : Kind Nat :=
  { repr := fun s => if s.toList.head? = some '(' then .ok s.length else .error .valueError }

/-- The hypotheses of the theorems above are met by this history. -/
example : (∃ e, demoKind.repr "" = .error e) ∧
    NoEmpty [.readValue, .set "(S a)", .build [1, 2], .load "(S (A b))", .readValue] ∧
    lastGiven [.readValue, .set "(S a)", .build [1, 2], .load "(S (A b))", .readValue] =
      some "(S (A b))" ∧ demoKind.repr "(S (A b))" = .ok 9 := by
  refine ⟨⟨.valueError, by decide⟩, ?_, rfl, by decide +kernel⟩
  intro o ho
  simp only [List.mem_cons, List.not_mem_nil, or_false] at ho
  rcases ho with rfl | rfl | rfl | rfl | rfl <;> simp

/-- **C122 fails**: `set_value` with an invalid string raises, but the old architecture is gone: the
identifier is the invalid string and the value raises. -/
theorem C122_invalid_fails :
    let p := (Param.setValue demoKind (.str "(S a)") {}).2
    (Param.getValue demoKind p).1 = .ok 5 ∧
    (Param.setValue demoKind (.str "oops") p).1 = .error .valueError ∧
    (Param.setValue demoKind (.str "oops") p).2.getId.1 = .ok (.str "oops") ∧
    (Param.getValue demoKind (Param.setValue demoKind (.str "oops") p).2).1 =
      .error .valueError := by
  decide +kernel

/-- **C122 fails**: comparing architecture parameters without a value raises, even a parameter with
itself. -/
theorem C122_compare_fails : Param.eq ({} : Param G) {} = .error .valueError := by
  simp [Param.eq, (fresh_new (G := G)).getId]

/-- **C122 fails**: a copy does not have the default of the original. -/
theorem C122_default_fails (p : Param G) (d : String) :
    (p.setDefault (some d)).default = some d ∧ (p.setDefault (some d)).clone.default = none := by
  refine ⟨rfl, ?_⟩
  unfold Param.clone
  cases hv : (p.setDefault (some d)).value.isSome <;> simp

/-! ## C123 -/

/-- **C123 (partial)**: if the configuration in a file names its architectures by their identifiers,
loading it gives exactly these architectures, whatever else the configuration holds. Missing: this is
not what the file holds (`C123_stored_fails`). -/
theorem C123_identifiers_partial (K : String → Option (Kind G)) (c : List (String × PyVal))
    (hc : ∀ e ∈ c, ∀ k, K e.1 = some k → ∃ s g, e.2 = .str s ∧ s ≠ "" ∧ k.repr s = .ok g) :
    ∃ ps, loadArchs K c = .ok ps ∧
      List.Forall₂ (fun (e : String × PyVal) (q : String × Param G) => q.1 = e.1 ∧
        q.2.getId.1 = .ok e.2 ∧
        ∃ k s g, K e.1 = some k ∧ e.2 = .str s ∧ k.repr s = .ok g ∧
          (Param.getValue k q.2).1 = .ok g) (c.filter fun e => (K e.1).isSome) ps := by
  induction c with
  | nil => exact ⟨[], rfl, .nil⟩
  | cons e c ih =>
    obtain ⟨ps, h1, h2⟩ := ih (fun e' he' => hc e' (by simp [he']))
    rcases hk : K e.1 with _ | k
    · refine ⟨ps, ?_, ?_⟩
      · unfold loadArchs
        rw [hk]
        exact h1
      · rw [List.filter_cons_of_neg (by simp [hk])]
        exact h2
    · obtain ⟨s, g, hs, hne, hr⟩ := hc e (by simp) k hk
      obtain ⟨c1, c2, _⟩ := createFromId_stands k hne ({} : Param G)
      rcases hcr : Param.createFromId k (.str s) ({} : Param G) with ⟨r, q⟩
      rw [hcr] at c1 c2
      simp only [hr, Except.map] at c1 c2
      subst c2
      rw [List.filter_cons_of_pos (by simp [hk])]
      refine ⟨(e.1, q) :: ps, ?_, .cons ⟨rfl, by rw [hs]; exact c1.getId.1, k, s, g, hk, hs, hr,
        c1.getValue.1.trans hr⟩ h2⟩
      unfold loadArchs
      rw [hk, hs]
      simp only [Param.loadFrom, hcr, h1]

example : ∀ e ∈ [("a", PyVal.str "(S a)"), ("lr", .int 3), ("b", .str "(S (A b))")], ∀ k,
    (fun n => if n = "lr" then none else some demoKind) e.1 = some k →
    ∃ s g, e.2 = .str s ∧ s ≠ "" ∧ k.repr s = .ok g := by
  intro e he k hk
  simp only [List.mem_cons, List.not_mem_nil, or_false] at he
  rcases he with rfl | rfl | rfl
  · obtain rfl : demoKind = k := by simpa using hk
    exact ⟨_, _, rfl, by decide, rfl⟩
  · simp at hk
  · obtain rfl : demoKind = k := by simpa using hk
    exact ⟨_, _, rfl, by decide, rfl⟩

/-- **C123 fails**: the file of a trial with a sampled architecture holds an empty list in its place,
whatever was sampled, so the architecture cannot be told from the run directory, and loading the
configuration into the space raises. -/
theorem C123_stored_fails (K : Kind G) (p : Param G) (name tree : String) (q : Param G)
    (hq : Param.sample K tree p = .ok q) :
    storedConfig [(name, .arch q)] = [(name, .list [])] ∧
    loadArchs (fun n => if n = name then some K else none) (storedConfig [(name, .arch q)]) =
      .error .attributeError := by
  have hnodes : q.nodes = [] := by
    unfold Param.sample at hq
    have key : ∀ x : Param G, x.nodes = [] → ((Param.getValue K x).2).nodes = [] := by
      intro x hx
      have hid : x.getId.2.nodes = [] := by
        unfold Param.getId; split
        · split <;> exact hx
        · exact hx
      unfold Param.getValue
      split
      · exact hx
      · split
        · rcases hg : x.getId with ⟨r, y⟩
          rw [hg] at hid
          cases r with
          | error e => exact hid
          | ok i =>
            simp only
            split <;> exact hid
        · split <;> exact hx
    have := key { p.clone.reset with stringTree := .str tree } rfl
    rcases hg : Param.getValue K { p.clone.reset with stringTree := .str tree } with ⟨r, y⟩
    rw [hg] at hq this
    cases r with
    | error e => simp at hq
    | ok g =>
      simp only [Except.ok.injEq] at hq
      subst hq
      exact this
  have hst : storedConfig [(name, .arch q)] = [(name, .list [])] := by
    simp [storedConfig, HpVal.stored, hnodes]
  refine ⟨hst, ?_⟩
  rw [hst]
  unfold loadArchs
  simp only [if_true, Param.loadFrom, Param.createFromId, Param.getId, Param.reset, reduceCtorEq,
    or_self, if_false, Param.getValue]
  cases K.newRepr <;> simp [Kind.reprVal]

/-- Two different architectures can be sampled. -/
example : ∃ q q' : Param Nat, Param.sample demoKind "(S a)" {} = .ok q ∧
    Param.sample demoKind "(S (A b))" {} = .ok q' ∧ q.getId.1 = .ok (.str "(S a)") ∧
    q'.getId.1 = .ok (.str "(S (A b))") := by
  obtain ⟨q, _, h1, _, h2, _⟩ := (C122_sampled demoKind {} "(S a)" (by decide)).2 5 (by decide +kernel)
  obtain ⟨q', _, h1', _, h2', _⟩ :=
    (C122_sampled demoKind {} "(S (A b))" (by decide)).2 9 (by decide +kernel)
  exact ⟨q, q', h1, h1', h2, h2'⟩

/-- **C123 fails**: after `to_pytorch` the file holds the numbers of the nodes. -/
theorem C123_nodes_fails (p : Param G) (name : String) (ns : List Nat) :
    storedConfig [(name, .arch (p.build ns))] = [(name, .list (ns.map (fun n => .int n)))] := rfl

end Verif.Arch
