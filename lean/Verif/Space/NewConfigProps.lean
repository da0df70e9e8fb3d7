import Verif.Space.NewConfigSpec
import Verif.Space.SpaceProps
import Verif.Space.SpaceDemo
import Mathlib.MeasureTheory.Measure.Lebesgue.Basic

/-!
# C130: where new configurations come from in successive halving and its relatives
-/

namespace Verif.Space

open SearchSpace MeasureTheory

/-! ## Lemmas -/

theorem fidelity_unique {s : SearchSpace} (h : s.InOrder) {f p : String × Hp} (hf : s.fidelity = some f)
    (hp : p ∈ s) (hpf : p.2.isFidelity = true) : p = f := by
  have hone := h.one
  have h1 : p ∈ s.filter fun p => p.2.isFidelity := List.mem_filter.mpr ⟨hp, hpf⟩
  have h2 : f ∈ s.filter fun p => p.2.isFidelity :=
    List.mem_filter.mpr ⟨List.mem_of_find?_eq_some hf, by simpa using List.find?_some hf⟩
  rcases hl : s.filter fun p => p.2.isFidelity with _ | ⟨a, _ | ⟨b, l⟩⟩
  · rw [hl] at h1; simp at h1
  · rw [hl] at h1 h2
    rw [List.mem_singleton.mp h1, List.mem_singleton.mp h2]
  · rw [hl] at hone; simp at hone

theorem fidelity_admits {s : SearchSpace} (h : s.InOrder) {b : ℝ} (ha : s.Admits b) :
    ∃ f, s.fidelity = some f ∧ f ∈ s ∧ f.2.isFidelity = true ∧ f.2.Accepts (.num b) := by
  obtain ⟨p, hp, hpf, hpa⟩ := ha
  cases hf : s.fidelity with
  | none =>
    unfold fidelity at hf
    rw [List.find?_eq_none] at hf
    exact absurd hpf (hf p hp)
  | some f =>
    have := fidelity_unique h hf hp hpf
    subst this
    exact ⟨p, rfl, hp, hpf, hpa⟩

theorem setFidelity_ok {s : SearchSpace} (h : s.InOrder) {f : String × Hp} (hf : s.fidelity = some f)
    {b : ℝ} (hb : f.2.Accepts (.num b)) :
    (f.2.setValue (.num b)).raised = false ∧ s.AtBudget b (s.set f.1 (f.2.setValue (.num b)).st) := by
  have hm : f ∈ s := List.mem_of_find?_eq_some hf
  have hff : f.2.isFidelity = true := by simpa using List.find?_some hf
  obtain ⟨h1, h2, h3, _⟩ := Hp.setValue_ok (h.ok f hm) hb
  refine ⟨h1, ?_⟩
  have hk : f.1 ∈ Dict.keys s := List.mem_map_of_mem (f := Prod.fst) hm
  refine forall₂_imp_mem (Dict.set_forall₂ s f.1 _ hk) ?_
  rintro p hp q _ ⟨e1, e2, e3⟩
  by_cases hpn : p.1 = f.1
  · have hpf : p = f := by
      have a1 := Dict.get?_of_mem h.nodup (k := p.1) (v := p.2) hp
      have a2 := Dict.get?_of_mem h.nodup (k := f.1) (v := f.2) hm
      rw [hpn] at a1
      rw [a1] at a2
      exact Prod.ext hpn (by simpa using a2)
    subst hpf
    rw [e2 rfl]
    exact ⟨e1, h3, by rw [if_pos hff, h2]⟩
  · rw [e3 hpn]
    refine ⟨e1, Hp.SameDecl.refl _, ?_⟩
    rw [if_neg]
    intro hpf
    exact hpn (by rw [fidelity_unique h hf hp hpf])

theorem admits_of_decl {s t : SearchSpace} (h : List.Forall₂ (fun p q : String × Hp =>
    q.1 = p.1 ∧ p.2.SameDecl q.2) s t) {b : ℝ} (ha : s.Admits b) : t.Admits b := by
  obtain ⟨p, hp, hf, hacc⟩ := ha
  obtain ⟨q, hq, _, hd⟩ := forall₂_mem_left h p hp
  exact ⟨q, hq, by rw [hd.isFidelity]; exact hf, (hd.accepts _).mp hacc⟩

theorem newConfig_of {s : SearchSpace} (o : NewOpts) (lo hi : ℝ) (n : ℕ) (coin coin' : ℝ)
    (draws : String → List Draw) {base : SearchSpace}
    (hb : s.newBase o n coin coin' draws = some base)
    (ho : base.InOrder)
    (ha : base.Admits (if o.defaultNext n && o.sampleDefaultAtTarget then hi else lo)) :
    ∃ c, s.newConfig o lo hi n coin coin' draws = some c ∧
      base.AtBudget (if o.defaultNext n && o.sampleDefaultAtTarget then hi else lo) c := by
  obtain ⟨f, hf, _, _, hacc⟩ := fidelity_admits ho ha
  obtain ⟨h1, h2⟩ := setFidelity_ok ho hf hacc
  refine ⟨_, ?_, h2⟩
  unfold newConfig
  rw [hb]
  simp only [Option.bind_eq_bind, Option.bind_some, hf, h1]
  rfl

theorem newConfig_base {s : SearchSpace} {o : NewOpts} {lo hi : ℝ} {n : ℕ} {coin coin' : ℝ}
    {draws : String → List Draw} {c : SearchSpace} (h : s.newConfig o lo hi n coin coin' draws = some c) :
    ∃ base, s.newBase o n coin coin' draws = some base := by
  unfold newConfig at h
  simp only [Option.bind_eq_bind] at h
  rw [Option.bind_eq_some_iff] at h
  obtain ⟨base, hb, _⟩ := h
  exact ⟨base, hb⟩

/-! ## The default first -/

/-- **C130 (default first)**: with `sample_default_first` the first configuration has the default of every
parameter, and is evaluated at the lowest budget, or at the highest if asked for. -/
theorem C130_default_first (s : SearchSpace) (hs : s.InOrder) (o : NewOpts) (lo hi : ℝ)
    (hlo : s.Admits lo) (hhi : s.Admits hi) (h1 : o.usePriors = true) (h2 : o.sampleDefaultFirst = true)
    (coin coin' : ℝ) (draws : String → List Draw) (c : SearchSpace)
    (hc : s.newConfig o lo hi 0 coin coin' draws = some c) :
    List.Forall₂ (fun p q => q.1 = p.1 ∧ p.2.SameDecl q.2 ∧ q.2.value =
      if p.2.isFidelity then some (.num (if o.sampleDefaultAtTarget then hi else lo)) else p.2.dflt) s c := by
  have hd : o.defaultNext 0 = true := by simp [NewOpts.defaultNext, h1, h2]
  obtain ⟨base, hb⟩ := newConfig_base hc
  have hb' := hb
  unfold newBase at hb'
  rw [hd, if_pos rfl] at hb'
  obtain ⟨ho, hp⟩ := C63_default s hs true false 1 draws base hb'
  have hall : ∀ p ∈ s, p.2.isFidelity = true ∨ p.2.dflt ≠ none := by
    by_contra hcon
    push Not at hcon
    obtain ⟨p, hps, k1, k2⟩ := hcon
    have := C63_missing_raises s true 1 draws ⟨p, hps, by simp [k1], k2⟩
    rw [this] at hb'
    exact absurd hb' (by simp)
  have hbud : s.Admits (if o.defaultNext 0 && o.sampleDefaultAtTarget then hi else lo) := by
    split_ifs <;> assumption
  obtain ⟨c', hc', hat⟩ := newConfig_of o lo hi 0 coin coin' draws hb ho (admits_of_decl hp.decl hbud)
  rw [hc] at hc'
  simp only [Option.some.injEq] at hc'
  subst hc'
  refine forall₂_imp_mem (forall₂_trans hp hat) ?_
  rintro p hps r _ ⟨q, ⟨e1, e2, e3⟩, f1, f2, f3⟩
  refine ⟨f1.trans e1, e2.trans f2, ?_⟩
  rw [f3, e2.isFidelity, hd, Bool.true_and]
  by_cases hfid : p.2.isFidelity = true
  · rw [if_pos hfid, if_pos hfid]
  · rw [if_neg hfid, if_neg hfid]
    simp only [hfid, Bool.false_eq_true, false_and, if_false] at e3
    rcases hall p hps with hf | hne
    · exact absurd hf hfid
    · obtain ⟨v, hv⟩ := Option.ne_none_iff_exists'.mp hne
      rw [hv] at e3 ⊢
      exact e3

/-- **C130 (total)**: a new configuration is always found, if the defaults that are needed exist. -/
theorem C130_total (s : SearchSpace) (hs : s.InOrder) (o o' : NewOpts) (ho : o.make = some o') (lo hi : ℝ)
    (hlo : s.Admits lo) (hhi : s.Admits hi) (n : ℕ)
    (hm : o.usePriors = true → o.sampleDefaultFirst = true → n = 0 →
      ∀ p ∈ s, p.2.isFidelity = true ∨ p.2.dflt ≠ none) (coin coin' : ℝ) (draws : String → List Draw)
    (hd : ∀ p ∈ s, ∃ d ds, draws p.1 = d :: ds ∧ p.2.Drawable d) :
    ∃ c, s.newConfig o lo hi n coin coin' draws = some c := by
  have hpat : 1 ≤ o.patience := by
    unfold NewOpts.make at ho
    split_ifs at ho with _ h2
    omega
  have hbud : s.Admits (if o.defaultNext n && o.sampleDefaultAtTarget then hi else lo) := by
    split_ifs <;> assumption
  by_cases hn : o.defaultNext n = true
  · have hn' := hn
    simp only [NewOpts.defaultNext, Bool.and_eq_true, beq_iff_eq] at hn'
    obtain ⟨base, hb⟩ := C63_default_total s hs true false 1 le_rfl draws hd (by
      intro p hp
      rcases hm hn'.1.1 hn'.1.2 hn'.2 p hp with h | h
      · exact .inl ⟨h, rfl⟩
      · exact .inr (.inr h))
    obtain ⟨ho, hp⟩ := C63_default s hs true false 1 draws base hb
    obtain ⟨c, hc, _⟩ := newConfig_of o lo hi n coin coin' draws (by unfold newBase; rw [if_pos hn]; exact hb) ho
      (admits_of_decl hp.decl hbud)
    exact ⟨c, hc⟩
  · have hcp : 1 ≤ (o.call coin coin').2 := by
      unfold NewOpts.call policyPatience
      split_ifs
      · exact hpat
      · cases o.policy <;> simp [hpat]
    obtain ⟨base, hb⟩ := C59_sample_total s hs (o.call coin coin').1 true (o.call coin coin').2 hcp draws hd
    obtain ⟨ho, hp⟩ := C59_sample s hs _ true _ draws base hb
    obtain ⟨c, hc, _⟩ := newConfig_of o lo hi n coin coin' draws (by unfold newBase; rw [if_neg hn]; exact hb) ho
      (admits_of_decl hp.decl hbud)
    exact ⟨c, hc⟩

/-- **C130 (partial priors) fails**: a space in which only some parameters have a default counts as a space
with priors, but the default configuration that comes first raises, whatever the random numbers. -/
theorem C130_partial_priors_fails (s : SearchSpace) (o : NewOpts) (h1 : o.usePriors = true)
    (h2 : o.sampleDefaultFirst = true) (hm : ∃ p ∈ s, p.2.isFidelity = false ∧ p.2.dflt = none)
    (lo hi coin coin' : ℝ) (draws : String → List Draw) :
    s.newConfig o lo hi 0 coin coin' draws = none := by
  obtain ⟨p, hp, hf, hd⟩ := hm
  by_contra hne
  obtain ⟨c, hc⟩ := Option.ne_none_iff_exists'.mp hne
  obtain ⟨base, hb⟩ := newConfig_base hc
  unfold newBase at hb
  rw [show o.defaultNext 0 = true by simp [NewOpts.defaultNext, h1, h2], if_pos rfl,
    C63_missing_raises s true 1 draws ⟨p, hp, by simp [hf], hd⟩] at hb
  exact absurd hb (by simp)

/-! ## The others -/

/-- **C130 (source)**: every other new configuration is a sample of the space with the lowest budget; it is
a sample of the prior exactly if the first random number is not below `random_interleave_prob` and the
policy says so. -/
theorem C130_source (s : SearchSpace) (hs : s.InOrder) (o : NewOpts) (lo hi : ℝ) (hlo : s.Admits lo)
    (n : ℕ) (hn : ¬ (o.usePriors = true ∧ o.sampleDefaultFirst = true ∧ n = 0)) (coin coin' : ℝ)
    (draws : String → List Draw) (c : SearchSpace)
    (hc : s.newConfig o lo hi n coin coin' draws = some c) :
    ∃ prior patience base, s.sample prior true patience draws = some base ∧ base.AtBudget lo c ∧
      (o.call coin coin').1 = prior ∧ (prior = true ↔ o.interleave ≤ coin ∧
        match o.policy with
        | .absent => o.usePriors = true
        | .uniform => False
        | .fixedPrior f => coin' < f) := by
  have hd : o.defaultNext n = false := by
    unfold NewOpts.defaultNext
    by_contra hcon
    simp only [Bool.not_eq_false, Bool.and_eq_true, beq_iff_eq] at hcon
    exact hn ⟨hcon.1.1, hcon.1.2, hcon.2⟩
  obtain ⟨base, hb⟩ := newConfig_base hc
  have hb' := hb
  unfold newBase at hb'
  rw [hd, if_neg (by simp)] at hb'
  obtain ⟨ho, hp⟩ := C59_sample s hs _ true _ draws base hb'
  have hbud : s.Admits (if o.defaultNext n && o.sampleDefaultAtTarget then hi else lo) := by
    rw [hd]; simpa using hlo
  obtain ⟨c', hc', hat⟩ := newConfig_of o lo hi n coin coin' draws hb ho (admits_of_decl hp.decl hbud)
  rw [hc] at hc'
  simp only [Option.some.injEq] at hc'
  subst hc'
  rw [hd] at hat
  refine ⟨_, _, base, hb', by simpa using hat, rfl, ?_⟩
  unfold NewOpts.call
  by_cases hi' : coin < o.interleave
  · rw [if_pos hi']
    simp [not_le.mpr hi']
  · rw [if_neg hi']
    have := not_lt.mp hi'
    cases o.policy <;> simp [this]

/-- **C130 (shares)**: of the pairs of random numbers, the share that leads to a sample of the prior is
`1 - random_interleave_prob` times the share of the policy. -/
theorem C130_shares (o o' : NewOpts) (ho : o.make = some o') :
    volume {r | r ∈ unitSquare ∧ (o.call r.1 r.2).1 = true} =
      ENNReal.ofReal ((1 - o.interleave) * o.policyShare) := by
  unfold NewOpts.make at ho
  split_ifs at ho with h1 h2
  push Not at h1
  obtain ⟨i0, i1⟩ := h1
  have key : ∀ f : ℝ, 0 ≤ f → f ≤ 1 →
      {r : ℝ × ℝ | r ∈ unitSquare ∧ (if r.1 < o.interleave then false else decide (r.2 < f)) = true} =
        Set.Ico o.interleave 1 ×ˢ Set.Ico 0 f := by
    intro f f0 f1
    ext ⟨a, b⟩
    simp only [unitSquare, Set.mem_ofPred_eq, Set.mem_prod, Set.mem_Ico]
    by_cases ha : a < o.interleave
    · simp only [ha, if_true, Bool.false_eq_true, and_false, false_iff]
      rintro ⟨⟨h, _⟩, _⟩
      exact absurd ha (not_lt.mpr h)
    · simp only [ha, if_false, decide_eq_true_eq]
      have := not_lt.mp ha
      constructor
      · rintro ⟨⟨⟨_, k2⟩, k3, _⟩, k5⟩
        exact ⟨⟨this, k2⟩, k3, k5⟩
      · rintro ⟨⟨k1, k2⟩, k3, k4⟩
        exact ⟨⟨⟨i0.trans k1, k2⟩, k3, k4.trans_le f1⟩, k4⟩
  have vol : ∀ f : ℝ, 0 ≤ f → volume (Set.Ico o.interleave 1 ×ˢ Set.Ico (0 : ℝ) f) =
      ENNReal.ofReal ((1 - o.interleave) * f) := by
    intro f f0
    rw [Measure.volume_eq_prod, Measure.prod_prod, Real.volume_Ico, Real.volume_Ico,
      ENNReal.ofReal_mul (by linarith), sub_zero]
  have red : ∀ f : ℝ, 0 ≤ f → f ≤ 1 → (∀ r ∈ unitSquare, (o.call r.1 r.2).1 =
      if r.1 < o.interleave then false else decide (r.2 < f)) →
      volume {r | r ∈ unitSquare ∧ (o.call r.1 r.2).1 = true} = ENNReal.ofReal ((1 - o.interleave) * f) := by
    intro f f0 f1 h
    rw [← vol f f0, ← key f f0 f1]
    congr 1
    ext r
    simp only [Set.mem_ofPred_eq]
    constructor
    · rintro ⟨a, b⟩; exact ⟨a, by rw [← h r a]; exact b⟩
    · rintro ⟨a, b⟩; exact ⟨a, by rw [h r a]; exact b⟩
  have hsq : ∀ r ∈ unitSquare, 0 ≤ r.2 ∧ r.2 < 1 := fun r hr => hr.2
  unfold NewOpts.policyShare
  rcases hp : o.policy with _ | _ | f
  · cases hu : o.usePriors with
    | true =>
      refine red 1 zero_le_one le_rfl fun r hr => ?_
      simp only [NewOpts.call, hp, hu]
      split_ifs
      · rfl
      · simp [(hsq r hr).2]
    | false =>
      refine red 0 le_rfl zero_le_one fun r hr => ?_
      simp only [NewOpts.call, hp, hu]
      split_ifs
      · rfl
      · simp [(hsq r hr).1]
  · refine red 0 le_rfl zero_le_one fun r hr => ?_
    simp only [NewOpts.call, hp]
    split_ifs
    · rfl
    · simp [(hsq r hr).1]
  · simp only [hp] at ho
    split_ifs at ho with hf
    refine red f hf.1 hf.2 fun r hr => ?_
    simp only [NewOpts.call, hp]
    split_ifs <;> rfl

/-! ## Without priors the defaults play no role -/

/-- The value of a sample without priors. -/
noncomputable def Hp.drawn (d : Draw) : Hp → Option Val
  | .float p => some (.num (p.sampleValue false d.uniform d.normal))
  | .int p => some (.num (p.sampleValue false d.uniform d.normal : ℤ))
  | .cat p => p.choices[d.index]?
  | .const p => some p.value

theorem Hp.sample_value {h q : Hp} (hok : h.Ok) {d : Draw} (hq : h.sample false d = some q) :
    q.value = h.drawn d := by
  have hu := hok.used
  have fin : ∀ (r : Hp) (v : Val), h.clone = some r → h.Accepts v → q = (r.setValue v).st →
      q.value = some v := by
    intro r v hr hv he
    obtain ⟨r', hr', h1, h2, h3⟩ := Hp.clone_ok hok
    rw [hr] at hr'
    simp only [Option.some.injEq] at hr'
    subst hr'
    rw [he]
    exact (Hp.setValue_ok h3 ((h1.accepts v).mp hv)).2.1
  cases h with
  | float p =>
    simp only [Hp.sample, Option.map_eq_some_iff] at hq
    obtain ⟨a, ha, rfl⟩ := hq
    unfold FloatParam.sample at ha
    rw [Option.bind_eq_bind, Option.bind_eq_some_iff] at ha
    obtain ⟨r, hr, ha⟩ := ha
    simp only at ha
    split_ifs at ha
    simp only [Option.pure_def, Option.some.injEq] at ha
    have hm := (FloatParam.Used.inv hu : p.Inv).sampleValue_mem false d.uniform d.normal
    exact fin (.float r) (.num (p.sampleValue false d.uniform d.normal)) (by simp [Hp.clone, hr])
      ⟨_, rfl, hm⟩ (by simp [Hp.setValue, Call.lift, ← ha])
  | int p =>
    simp only [Hp.sample, Option.map_eq_some_iff] at hq
    obtain ⟨a, ha, rfl⟩ := hq
    unfold IntParam.sample at ha
    rw [Option.bind_eq_bind, Option.bind_eq_some_iff] at ha
    obtain ⟨r, hr, ha⟩ := ha
    simp only at ha
    split_ifs at ha
    simp only [Option.pure_def, Option.some.injEq] at ha
    have hi : p.Inv := IntParam.Used.inv hu
    have hm := hi.rnd_mem (hi.finv.sampleValue_mem false d.uniform d.normal)
    exact fin (.int r) (.num (p.sampleValue false d.uniform d.normal : ℝ)) (by simp [Hp.clone, hr])
      ⟨_, rfl, hm⟩ (by simp [Hp.setValue, Call.lift, ← ha])
  | cat p =>
    simp only [Hp.sample, Option.map_eq_some_iff] at hq
    obtain ⟨a, ha, rfl⟩ := hq
    unfold CatParam.sample at ha
    simp only [Option.bind_eq_bind] at ha
    rw [Option.bind_eq_some_iff] at ha
    obtain ⟨v, hv, ha⟩ := ha
    rw [Option.bind_eq_some_iff] at ha
    obtain ⟨r, hr, ha⟩ := ha
    split_ifs at ha
    simp only [Option.pure_def, Option.some.injEq] at ha
    have := fin (.cat r) v (by simp [Hp.clone, hr]) (List.mem_of_getElem? hv)
      (by simp [Hp.setValue, Call.lift, ← ha])
    rw [this]
    exact hv.symm
  | const p =>
    simp only [Hp.sample, Option.some.injEq] at hq
    rw [← hq]
    rfl

theorem Hp.sample_range {a b : Hp} (ha : a.Ok) (hb : b.Ok) (hr : a.SameRange b) (d : Draw) :
    (a.sample false d).map Hp.value = (b.sample false d).map Hp.value := by
  have both : ∀ {x y : Hp}, a.sample false d = some x → b.sample false d = some y →
      x.value = y.value := by
    intro x y hx hy
    rw [Hp.sample_value ha hx, Hp.sample_value hb hy]
    rcases a with p | p | p | p <;> rcases b with q | q | q | q <;> simp only [Hp.SameRange] at hr <;>
      simp only [Hp.drawn]
    · obtain ⟨e1, e2, e3, _⟩ := hr
      simp [FloatParam.sampleValue, e1, e2, e3]
    · obtain ⟨e1, e2, e3, _⟩ := hr
      have ip : p.Inv := IntParam.Used.inv ha.used
      have iq : q.Inv := IntParam.Used.inv hb.used
      have f1 : q.floatHp.lower = p.floatHp.lower := by rw [iq.fl, ip.fl, e1]
      have f2 : q.floatHp.upper = p.floatHp.upper := by rw [iq.fu, ip.fu, e2]
      have f3 : q.floatHp.log = p.floatHp.log := by rw [iq.flog, ip.flog, e3]
      simp [IntParam.sampleValue, FloatParam.sampleValue, f1, f2, f3]
    · simp only [hr]
    · simp only [hr]
  have tot : a.Drawable d ↔ b.Drawable d := by
    cases a <;> cases b <;> simp_all [Hp.SameRange, Hp.Drawable]
  by_cases hd : a.Drawable d
  · obtain ⟨x, hx⟩ := Hp.sample_total ha false hd
    obtain ⟨y, hy⟩ := Hp.sample_total hb false (tot.mp hd)
    rw [hx, hy, Option.map_some, Option.map_some, both hx hy]
  · have none_of : ∀ {h : Hp}, ¬ h.Drawable d → h.sample false d = none := by
      intro h hn
      cases h with
      | cat p =>
        simp only [Hp.Drawable, not_lt] at hn
        simp [Hp.sample, CatParam.sample, CatParam.sampleValue, hn]
      | float p => exact absurd trivial hn
      | int p => exact absurd trivial hn
      | const p => exact absurd trivial hn
    rw [none_of hd, none_of (fun h => hd (tot.mpr h))]

theorem Hp.SameRange.isFidelity {a b : Hp} (h : a.SameRange b) : b.isFidelity = a.isFidelity := by
  cases a <;> cases b <;> simp_all [Hp.SameRange, Hp.isFidelity]

theorem sampleHp_range {a b : Hp} (ha : a.Ok) (hb : b.Ok) (hr : a.SameRange b) (patience : ℕ)
    (draws : List Draw) {x : Hp} (hx : sampleHp false true patience draws a = some x) :
    ∃ y, sampleHp false true patience draws b = some y ∧ (a.isFidelity = false → y.value = x.value) := by
  unfold sampleHp at hx ⊢
  rw [hr.isFidelity]
  by_cases hf : a.isFidelity = true
  · rw [if_pos ⟨hf, rfl⟩]
    obtain ⟨y, hy, _⟩ := Hp.clone_ok hb
    exact ⟨y, hy, by simp [hf]⟩
  · rw [if_neg (by simp [hf])] at hx ⊢
    generalize draws.take patience = l at hx ⊢
    induction l with
    | nil => simp at hx
    | cons d l ih =>
      have he := Hp.sample_range ha hb hr d
      rw [List.findSome?_cons] at hx ⊢
      cases hs : a.sample false d with
      | some x' =>
        rw [hs] at hx he
        simp only [Option.some.injEq] at hx
        subst hx
        cases hs' : b.sample false d with
        | none => rw [hs'] at he; simp at he
        | some y =>
          rw [hs'] at he
          simp only [Option.map_some, Option.some.injEq] at he
          exact ⟨y, rfl, fun _ => he.symm⟩
      | none =>
        rw [hs] at hx he
        cases hs' : b.sample false d with
        | none => exact ih hx
        | some y => rw [hs'] at he; simp at he

/-- **C130 (defaults ignored)**: an optimizer that does not use priors proposes the same values whatever the
defaults of the parameters are. -/
theorem C130_defaults_ignored (s t : SearchSpace) (hs : s.InOrder) (ht : t.InOrder) (hr : s.SameRanges t)
    (o : NewOpts) (h1 : o.usePriors = false) (h2 : ∀ f, o.policy ≠ .fixedPrior f) (lo hi : ℝ)
    (hlo : s.Admits lo) (n : ℕ) (coin coin' : ℝ) (draws : String → List Draw) (c : SearchSpace)
    (hc : s.newConfig o lo hi n coin coin' draws = some c) :
    ∃ c', t.newConfig o lo hi n coin coin' draws = some c' ∧ c.SameValues c' := by
  have hd : o.defaultNext n = false := by simp [NewOpts.defaultNext, h1]
  have hcall : (o.call coin coin').1 = false := by
    unfold NewOpts.call
    split_ifs
    · rfl
    · rcases hp : o.policy with _ | _ | f
      · exact h1
      · rfl
      · exact absurd hp (h2 f)
  obtain ⟨base, hb⟩ := newConfig_base hc
  have hb' := hb
  unfold newBase at hb'
  rw [hd, if_neg (by simp), hcall] at hb'
  obtain ⟨ho, hp⟩ := C59_sample s hs _ true _ draws base hb'
  have hbud : (if o.defaultNext n && o.sampleDefaultAtTarget then hi else lo) = lo := by simp [hd]
  obtain ⟨c1, hc1, hat⟩ := newConfig_of o lo hi n coin coin' draws hb ho
    (by rw [hbud]; exact admits_of_decl hp.decl hlo)
  rw [hc] at hc1
  simp only [Option.some.injEq] at hc1
  subst hc1
  rw [hbud] at hat
  -- the sample of the other space
  unfold SearchSpace.sample at hb'
  rw [Option.bind_eq_bind, Option.bind_eq_some_iff] at hb'
  obtain ⟨m, hm, hmk⟩ := hb'
  have hm2 := mapM_forall₂ hm
  have hmb : m = base := by
    have hd2 : List.Forall₂ (fun p q : String × Hp => q.1 = p.1 ∧ p.2.SameDecl q.2) s m := by
      apply forall₂_imp_mem hm2
      intro p hps q _ hpq
      simp only [Option.map_eq_some_iff] at hpq
      obtain ⟨q', hq', rfl⟩ := hpq
      refine ⟨rfl, ?_⟩
      unfold sampleHp at hq'
      split_ifs at hq' with hi
      · obtain ⟨r, hr, k1, _⟩ := Hp.clone_ok (hs.ok p hps)
        rw [hr] at hq'
        simp only [Option.some.injEq] at hq'
        subst hq'
        exact k1
      · obtain ⟨d, _, hd⟩ := List.exists_of_findSome?_eq_some hq'
        exact (Hp.sample_ok (hs.ok p hps) hd).1
    rw [hs.make hd2] at hmk
    simpa using hmk
  subst hmb
  have hex : ∃ m', (t.mapM fun p => (sampleHp false true (o.call coin coin').2 (draws p.1) p.2).map
      fun q => (p.1, q)) = some m' ∧ List.Forall₂ (fun p q : String × Hp => q.1 = p.1 ∧
        q.2.isFidelity = p.2.isFidelity ∧ (p.2.isFidelity = false → q.2.value = p.2.value)) m m' := by
    have hsok := hs.ok
    have htok := ht.ok
    have hdecl : List.Forall₂ (fun p q : String × Hp => p.2.SameDecl q.2) s m := by
      refine hp.imp fun _ _ h => h.2.1
    clear hc hb hat hp ho hm hmk hs ht hlo hbud
    induction hr generalizing m with
    | nil =>
      cases hm2
      exact ⟨[], rfl, .nil⟩
    | @cons p q s t hpq _ ih =>
      cases hm2 with
      | @cons _ x _ m hx hm2 =>
        cases hdecl with
        | cons hd1 hdecl =>
          obtain ⟨m', hm', hf⟩ := ih m hm2 (fun r hr => hsok r (by simp [hr]))
            (fun r hr => htok r (by simp [hr])) hdecl
          simp only [Option.map_eq_some_iff] at hx
          obtain ⟨x', hx', rfl⟩ := hx
          obtain ⟨y, hy, hv⟩ := sampleHp_range (hsok p (by simp)) (htok q (by simp)) hpq.2 _ _ hx'
          refine ⟨(q.1, y) :: m', ?_, .cons ⟨hpq.1, ?_, ?_⟩ hf⟩
          · rw [List.mapM_cons, hm', hpq.1, hy]
            rfl
          · have k1 : y.isFidelity = q.2.isFidelity := by
              unfold sampleHp at hy
              split_ifs at hy with hi
              · obtain ⟨r, hr, k1, _⟩ := Hp.clone_ok (htok q (by simp))
                rw [hr] at hy
                simp only [Option.some.injEq] at hy
                subst hy
                exact k1.isFidelity
              · obtain ⟨d, _, hd⟩ := List.exists_of_findSome?_eq_some hy
                exact (Hp.sample_ok (htok q (by simp)) hd).1.isFidelity
            rw [k1, hpq.2.isFidelity]
            exact hd1.isFidelity.symm
          · intro hxf
            exact hv (by rw [← hd1.isFidelity]; exact hxf)
  obtain ⟨m', hm', hf⟩ := hex
  have hbt : ∃ base', t.sample false true (o.call coin coin').2 draws = some base' ∧ base' = m' := by
    have hd2 : List.Forall₂ (fun p q : String × Hp => q.1 = p.1 ∧ p.2.SameDecl q.2) t m' := by
      apply forall₂_imp_mem (mapM_forall₂ hm')
      intro p hps q _ hpq
      simp only [Option.map_eq_some_iff] at hpq
      obtain ⟨q', hq', rfl⟩ := hpq
      refine ⟨rfl, ?_⟩
      unfold sampleHp at hq'
      split_ifs at hq' with hi
      · obtain ⟨r, hr, k1, _⟩ := Hp.clone_ok (ht.ok p hps)
        rw [hr] at hq'
        simp only [Option.some.injEq] at hq'
        subst hq'
        exact k1
      · obtain ⟨d, _, hd⟩ := List.exists_of_findSome?_eq_some hq'
        exact (Hp.sample_ok (ht.ok p hps) hd).1
    refine ⟨m', ?_, rfl⟩
    unfold SearchSpace.sample
    rw [hm']
    exact ht.make hd2
  obtain ⟨base', hb2, rfl⟩ := hbt
  obtain ⟨ho', hp'⟩ := C59_sample t ht _ true _ draws base' hb2
  have hlo' : t.Admits lo := by
    obtain ⟨p, hps, k1, k2⟩ := hlo
    obtain ⟨q, hqt, _, hq⟩ := forall₂_mem_left hr p hps
    exact ⟨q, hqt, by rw [hq.isFidelity]; exact k1, (hq.accepts _).mp k2⟩
  obtain ⟨c', hc', hat'⟩ := newConfig_of (s := t) o lo hi n coin coin' draws
    (by unfold newBase; rw [hd, if_neg (by simp), hcall]; exact hb2) ho' (by rw [hbud]; exact admits_of_decl hp'.decl hlo')
  refine ⟨c', hc', ?_⟩
  rw [hbud] at hat'
  -- pointwise
  clear hc hb hc' hm hmk hb2 hm' hm2 hp hp' ho ho'
  induction hat generalizing base' c' with
  | nil =>
    cases hf
    cases hat'
    exact .nil
  | @cons p q l l' h1 _ ih =>
    cases hf with
    | cons hf1 hf =>
      cases hat' with
      | cons ha1 hat' =>
        refine .cons ⟨by rw [ha1.1, hf1.1, h1.1], ?_⟩ (ih _ hf _ hat')
        rw [ha1.2.2, h1.2.2, hf1.2.1]
        by_cases hfid : p.2.isFidelity = true
        · simp [hfid]
        · simp only [hfid, Bool.false_eq_true, if_false]
          exact hf1.2.2 (by simpa using hfid)

/-! ## The hypotheses can be met -/

/-- Options of successive halving with priors and a tenth of uniform samples. -/
noncomputable def demoNew : NewOpts := ⟨true, 1 / 10, true, false, .fixedPrior 1, 50⟩

theorem demoNew_make : demoNew.make = some demoNew := by
  simp only [NewOpts.make, demoNew]
  norm_num

theorem demoSpace_admits : demoSpace.Admits 1 ∧ demoSpace.Admits 9 :=
  ⟨⟨("epochs", .int demoEpochs), by simp [demoSpace], rfl, 1, by simp, by simp [demoEpochs],
    by simp [demoEpochs]⟩, ⟨("epochs", .int demoEpochs), by simp [demoSpace], rfl, 9, by simp,
    by simp [demoEpochs], by simp [demoEpochs]⟩⟩

/-- The first configuration of the demonstration space is its default. -/
example : ∃ c, demoSpace.newConfig demoNew 1 9 0 0 0 (fun _ => [⟨1, 0, 0⟩]) = some c ∧
    c.map (fun p => (p.1, p.2.value)) = [("act", some (.str "tanh")), ("epochs", some (.num 1)),
      ("lr", some (.num 2))] := by
  obtain ⟨c, hc⟩ := C130_total demoSpace demoSpace_inOrder demoNew demoNew demoNew_make 1 9
    demoSpace_admits.1 demoSpace_admits.2 0 (by
      intro _ _ _ p hp
      simp only [demoSpace, List.mem_cons, List.not_mem_nil, or_false] at hp
      rcases hp with rfl | rfl | rfl
      · right; simp [Hp.dflt, demoAct]
      · left; rfl
      · right; simp [Hp.dflt, demoLr]) 0 0 (fun _ => [⟨1, 0, 0⟩]) (by
      intro p hp
      simp only [demoSpace, List.mem_cons, List.not_mem_nil, or_false] at hp
      rcases hp with rfl | rfl | rfl <;> exact ⟨_, _, rfl, by simp [Hp.Drawable, demoAct]⟩)
  refine ⟨c, hc, ?_⟩
  have := C130_default_first demoSpace demoSpace_inOrder demoNew 1 9 demoSpace_admits.1 demoSpace_admits.2
    rfl rfl 0 0 _ c hc
  unfold demoSpace at this
  cases this with
  | cons a1 this =>
    cases this with
    | cons a2 this =>
      cases this with
      | cons a3 this =>
        cases this
        simp only [List.map_cons, List.map_nil, a1.1, a2.1, a3.1, a1.2.2, a2.2.2, a3.2.2]
        simp [Hp.isFidelity, demoEpochs, demoLr, demoAct, demoNew, Hp.dflt]

/-- Nine tenths of the others are samples of the prior. -/
example : volume {r | r ∈ unitSquare ∧ (demoNew.call r.1 r.2).1 = true} = ENNReal.ofReal (9 / 10) := by
  rw [C130_shares demoNew demoNew demoNew_make]
  congr 1
  simp only [NewOpts.policyShare, demoNew]
  norm_num

end Verif.Space
