import Verif.Arch.BuildLemmas

/-!
# C142: the operations of an architecture are created with the right arguments
-/

namespace Verif.Arch

variable {V C : Type} {rule : V → Option (Attrs V) → Option (Attrs V)} {source : ℕ}

/-- **C142.** If the operations are created, then each edge has exactly one, in the order of the edges; its
class and arguments are what the user declared for it, overwritten by what `set_recursive_attribute`
says for its name and the final items of the first operation that leads to it (`Follows`).  The
name of the operation and the class itself are not among the arguments. -/
theorem C142_arguments (G : OpGraph V) (order : List ℕ) (h : G.Ready source order)
    (isClass : V → Option C) (accepts : C → Attrs V → Bool)
    (ops : List ((ℕ × ℕ) × Created C V))
    (hops : G.operations isClass accepts rule order = .ok ops) :
    ∃ result, G.Follows rule source result ∧ ops.map (·.1) = G.edges ∧
      ∀ e c, (e, c) ∈ ops → (∃ v, result e "op" = some v ∧ isClass v = some c.cls) ∧
        accepts c.cls c.args = true ∧ c.args "op" = none ∧ c.args "op_name" = none ∧
        ∀ k, k ≠ "op" → k ≠ "op_name" → c.args k = result e k := by
  unfold OpGraph.operations at hops
  cases hb : G.build rule order with
  | error r => rw [hb] at hops; simp at hops
  | ok G' =>
    rw [hb] at hops
    simp only [OpGraph.compile] at hops
    have hedges : G'.edges = G.edges := by
      rw [h.build_eq] at hb
      exact (OpGraph.buildEdges_frame _ hb).2.1
    rw [hedges] at hops
    refine ⟨G'.attrs, h.follows hb, ?_⟩
    generalize G.edges = es at hops
    induction es generalizing ops with
    | nil =>
      simp only [List.mapM_nil] at hops
      cases hops
      simp
    | cons e es ih =>
      rw [List.mapM_cons] at hops
      cases hc : compileEdge isClass accepts (G'.attrs e) with
      | error r => rw [hc] at hops; simp [bind, Except.bind] at hops
      | ok c =>
        rw [hc] at hops
        simp only [bind, Except.bind, pure, Except.pure] at hops
        split at hops
        · simp at hops
        · rename_i rest hrest
          simp only [Except.ok.injEq] at hops
          subst hops
          obtain ⟨ih1, ih2⟩ := ih rest hrest
          refine ⟨by simp [ih1], ?_⟩
          intro e' c' hm
          rcases List.mem_cons.mp hm with heq | hm
          · cases heq
            unfold compileEdge at hc
            cases hop : G'.attrs e "op" with
            | none => rw [hop] at hc; simp at hc
            | some op =>
              rw [hop] at hc
              simp only at hc
              cases hcl : isClass op with
              | none => rw [hcl] at hc; simp at hc
              | some cl =>
                rw [hcl] at hc
                simp only at hc
                split at hc
                · rename_i hacc
                  simp only [Except.ok.injEq] at hc
                  subst hc
                  refine ⟨⟨op, rfl, hcl⟩, hacc, by simp, by simp, ?_⟩
                  intro k h1 h2
                  simp [h1, h2]
                · simp at hc
          · exact ih2 e' c' hm

/-- **C142**, the arguments are determined: there is only one way to follow the rule. -/
theorem C142_unique (G : OpGraph V) (order : List ℕ) (h : G.Ready source order)
    (A B : ℕ × ℕ → Attrs V) (hA : G.Follows rule source A) (hB : G.Follows rule source B) :
    ∀ e ∈ G.edges, A e = B e := by
  refine h.induct _ ?_
  intro e he ih
  obtain ⟨name, d, hn, hr, hres⟩ := hA e he
  obtain ⟨name', d', hn', hr', hres'⟩ := hB e he
  rw [hn] at hn'
  cases hn'
  have hd : d = d' := by
    rcases hr with ⟨hs, hr⟩ | ⟨before, w, after, hs, h1, h2, hr⟩
    · rcases hr' with ⟨_, hr'⟩ | ⟨_, _, _, hs', _, _, _⟩
      · rw [hr] at hr'
        exact Option.some.inj hr'
      · exact absurd hs hs'
    · rcases hr' with ⟨hs', _⟩ | ⟨before', w', after', _, h1', h2', hr'⟩
      · exact absurd hs' hs
      · have hw : w = w' := by
          have f1 : G.edges.find? (fun e' => decide (e'.2 = e.1)) = some (w, e.1) := by
            rw [List.find?_eq_some_iff_append]
            exact ⟨by simp, before, after, h1, fun a ha => by simpa using h2 a ha⟩
          have f2 : G.edges.find? (fun e' => decide (e'.2 = e.1)) = some (w', e.1) := by
            rw [List.find?_eq_some_iff_append]
            exact ⟨by simp, before', after', h1', fun a ha => by simpa using h2' a ha⟩
          rw [f1] at f2
          simpa using f2
        subst hw
        rw [ih (w, e.1) (by rw [h1]; simp) rfl, hr'] at hr
        exact (Option.some.inj hr).symm
  subst hd
  funext k
  rw [hres k, hres' k]

/-- **C142**, nothing else goes wrong: if the rule of the user never raises and the declared `op` are
classes that take the arguments, the operations are created. -/
theorem C142_created (G : OpGraph V) (order : List ℕ) (h : G.Ready source order)
    (isClass : V → Option C) (accepts : C → Attrs V → Bool)
    (hrule : ∀ name a, (rule name a).isSome)
    (hop : ∀ result, G.Follows rule source result → ∀ e ∈ G.edges, ∃ v c,
      result e "op" = some v ∧ isClass v = some c ∧
        accepts c (fun k => if k = "op" ∨ k = "op_name" then none else result e k) = true) :
    ∃ ops, G.operations isClass accepts rule order = .ok ops := by
  have hv := h.visits_sorted
  obtain ⟨G', hG'⟩ := OpGraph.buildEdges_total (source := source) hrule (G.visits order) G hv.1
    (fun e he => h.named e (h.mem_visits.mp he)) (by
      intro e he hs hp
      have he := h.mem_visits.mp he
      refine hs ((h.only e.1 (h.ends e he).1).mp ?_)
      intro e' he' hc
      have : e'.1 ∈ G.predecessors e.1 := by
        rw [OpGraph.mem_predecessors, ← hc]
        exact he'
      rw [hp] at this
      simp at this)
  rw [← h.build_eq] at hG'
  have hf := h.follows hG'
  have hedges : G'.edges = G.edges := by
    rw [h.build_eq] at hG'
    exact (OpGraph.buildEdges_frame _ hG').2.1
  unfold OpGraph.operations
  rw [hG']
  simp only [OpGraph.compile, hedges]
  have hc : ∀ e, ∃ c : Option (Created C V), e ∈ G.edges →
      ∃ c', c = some c' ∧ compileEdge isClass accepts (G'.attrs e) = .ok c' := by
    intro e
    by_cases he : e ∈ G.edges
    · obtain ⟨v, c, h1, h2, h3⟩ := hop _ hf e he
      refine ⟨some ⟨c, fun k => if k = "op" ∨ k = "op_name" then none else G'.attrs e k⟩,
        fun _ => ⟨_, rfl, ?_⟩⟩
      unfold compileEdge
      rw [h1]
      simp only [h2]
      rw [if_pos h3]
    · exact ⟨none, fun h => absurd h he⟩
  have : ∀ es : List (ℕ × ℕ), (∀ e ∈ es, e ∈ G.edges) → ∃ ops, (es.mapM fun e =>
      match compileEdge isClass accepts (G'.attrs e) with
      | .error r => .error r
      | .ok c => .ok (e, c)) = (.ok ops : Except BuildErr (List ((ℕ × ℕ) × Created C V))) := by
    intro es hes
    induction es with
    | nil => exact ⟨[], rfl⟩
    | cons e es ih =>
      obtain ⟨ops, ho⟩ := ih fun e' he' => hes e' (by simp [he'])
      obtain ⟨_, hce⟩ := hc e
      obtain ⟨c', _, hce⟩ := hce (hes e (by simp))
      refine ⟨(e, c') :: ops, ?_⟩
      rw [List.mapM_cons, ho, hce]
      rfl
  exact this G.edges fun _ h => h

/-- **C142**, channels fit.  Let the rule hand a number from operation to operation, as in the examples of
the package, and let it be possible at all to number the nodes such that each operation gives the
number of the node it leads to when it gets the number of the node it comes from.  Then each
operation is created with the number that *every* operation before it gives. -/
theorem C142_fit (G : OpGraph V) (order : List ℕ) (h : G.Ready source order)
    (inKey outKey : String) (first : V) (gives : V → V → V)
    (hpass : Passes rule inKey outKey first gives)
    (number : ℕ → V) (h0 : number source = first)
    (hnum : ∀ e ∈ G.edges, ∀ name, G.attrs e "op_name" = some name →
      gives name (number e.1) = number e.2)
    (result : ℕ × ℕ → Attrs V) (hres : G.Follows rule source result) :
    (∀ e ∈ G.edges, result e inKey = some (number e.1) ∧ result e outKey = some (number e.2)) ∧
    ∀ e ∈ G.edges, ∀ e' ∈ G.edges, e.2 = e'.1 → result e outKey = result e' inKey := by
  have main : ∀ e ∈ G.edges,
      result e inKey = some (number e.1) ∧ result e outKey = some (number e.2) := by
    refine h.induct _ ?_
    intro e he ih
    obtain ⟨name, d, hn, hr, hk⟩ := hres e he
    have hd : d inKey = some (number e.1) ∧ d outKey = some (gives name (number e.1)) := by
      rcases hr with ⟨hs, hr⟩ | ⟨before, w, after, hs, h1, h2, hr⟩
      · rw [hs, h0]
        exact hpass.input name d hr
      · exact hpass.next name _ d _ hr (ih (w, e.1) (by rw [h1]; simp) rfl).2
    rw [hnum e he name hn] at hd
    exact ⟨by rw [hk, hd.1], by rw [hk, hd.2]⟩
  refine ⟨main, ?_⟩
  intro e he e' he' hc
  rw [(main e he).2, (main e' he').1, hc]

/-- **C142**, names.  An operation that is created to ask for its name gets a value for each of its
parameters, the declared one where there is one; an operation with several groups gets as many
channels as groups. -/
theorem C142_name [DecidableEq V] (sig : List (String × Option V)) (fortyTwo one : V)
    (declared : Attrs V) (k : String) (hk : k ≠ "self" ∧ k ≠ "kwargs") (hsig : k ∈ sig.map (·.1)) :
    (nameArgs sig fortyTwo one declared k).isSome ∧
    (k ≠ "c_in" ∧ k ≠ "c_out" ∨ nameArgs sig fortyTwo one declared "groups" ∈ [none, some one] →
      ∀ v, declared k = some v → nameArgs sig fortyTwo one declared k = some v) ∧
    ∀ g, nameArgs sig fortyTwo one declared "groups" = some g → g ≠ one →
      (k = "c_in" ∨ k = "c_out") → nameArgs sig fortyTwo one declared k = some g := by
  obtain ⟨p, hp⟩ : ∃ p, sig.find? (·.1 = k) = some p := by
    rw [← Option.isSome_iff_exists, List.find?_isSome]
    simp only [List.mem_map] at hsig
    obtain ⟨p, hp, rfl⟩ := hsig
    exact ⟨p, hp, by simp⟩
  have hplain : plainArgs sig fortyTwo declared k
      = (declared k).or (p.2.or (some fortyTwo)) := by
    simp only [plainArgs, hk.1, hk.2, or_self, if_false, hp]
  have hsome : (plainArgs sig fortyTwo declared k).isSome := by
    rw [hplain]
    cases declared k <;> cases p.2 <;> rfl
  have hval : ∀ v, declared k = some v → plainArgs sig fortyTwo declared k = some v := by
    intro v hv
    rw [hplain, hv]
    rfl
  have hg : nameArgs sig fortyTwo one declared "groups"
      = plainArgs sig fortyTwo declared "groups" := by
    unfold nameArgs
    cases h : plainArgs sig fortyTwo declared "groups" with
    | none => exact h
    | some g =>
      simp only
      split
      · exact h
      · simp [h]
  rw [hg]
  unfold nameArgs
  cases h : plainArgs sig fortyTwo declared "groups" with
  | none => exact ⟨hsome, fun _ => hval, fun g hc => by simp at hc⟩
  | some g =>
    simp only
    by_cases h1 : g = one
    · rw [if_pos h1]
      refine ⟨hsome, fun _ => hval, ?_⟩
      intro g' hc hne
      cases hc
      exact absurd h1 hne
    · rw [if_neg h1]
      refine ⟨?_, ?_, ?_⟩
      · split
        · rfl
        · exact hsome
      · rintro (⟨h2, h3⟩ | hm) v hv
        · simp only [h2, h3, or_self, if_false]
          exact hval v hv
        · simp [h1] at hm
      · intro g' hc _ hk'
        cases hc
        simp [hk']

/-- **C142**, the limit of `C142_fit`: where the numbers cannot fit, only the first operation that leads to an
operation is asked, and nobody notices that the others give something else.  Here the branch
`1 → 2 → 4` doubles the number and `1 → 3 → 4` does not; the operation `4 → 5` is created for 32
channels, although it gets 16 from one of the two. -/
theorem C142_first_only :
    let rule : ℕ → Option (Attrs ℕ) → Option (Attrs ℕ) := fun name a =>
      let c := ((a.bind fun a => a "c_out")).getD 16
      some fun k => if k = "c_in" then some c else if k = "c_out" then some (c * name) else none
    let G : OpGraph ℕ := ⟨[1, 2, 3, 4, 5], [(1, 2), (1, 3), (2, 4), (3, 4), (4, 5)], fun e k =>
      if k = "op" then some 0 else if k = "op_name" then some (if e = (1, 2) then 2 else 1) else none⟩
    ∃ G', G.build rule [1, 2, 3, 4, 5] = .ok G' ∧ G'.attrs (3, 4) "c_out" = some 16 ∧
      G'.attrs (2, 4) "c_out" = some 32 ∧ G'.attrs (4, 5) "c_in" = some 32 := by
  refine ⟨_, rfl, ?_, ?_, ?_⟩ <;> decide +kernel

/-! ## The hypotheses are met -/

/-- Two operations in parallel between others. -/
def demoOps : OpGraph ℕ :=
  ⟨[1, 2, 3, 4], [(1, 2), (2, 3), (2, 4), (3, 4)], fun e k =>
    if k = "op" then some 7 else if k = "op_name" then some (if e = (1, 2) then 2 else 1)
    else if k = "kernel_size" ∧ e = (2, 4) then some 3 else none⟩

/-- The rule of the examples: 16 channels at the input, and operations that multiply them. -/
def demoRule : ℕ → Option (Attrs ℕ) → Option (Attrs ℕ) := fun name a =>
  let c := (a.bind fun a => a "c_out").getD 16
  some fun k => if k = "c_in" then some c else if k = "c_out" then some (c * name) else none

example : demoOps.Ready 1 [1, 2, 3, 4] where
  nodup := by decide
  source_mem := by decide
  only := by decide
  ends := by decide
  named := by decide
  listed := by decide
  sorted := by decide
  loopless := by decide

example : Passes demoRule "c_in" "c_out" 16 fun name c => c * name where
  input := by
    intro name d h
    simp only [demoRule, Option.some.injEq] at h
    subst h
    simp
  next := by
    intro name a d x h hx
    simp only [demoRule, Option.some.injEq] at h
    subst h
    simp [hx]

example : ∀ e ∈ demoOps.edges, ∀ name, demoOps.attrs e "op_name" = some name →
    (if e.1 = 1 then 16 else 32) * name = if e.2 = 1 then 16 else 32 := by
  decide +kernel

example : ∃ ops, demoOps.operations (fun v => if v = 7 then some () else none)
    (fun _ a => a "op_name" = none) demoRule [1, 2, 3, 4] = .ok ops ∧ ops.length = 4 :=
  ⟨_, rfl, by decide +kernel⟩

end Verif.Arch
