import Verif.Space.Enhance
import Verif.Space.EnhanceSpec
import Verif.Space.PriorProps
import Verif.Space.SpaceProps
import Verif.Space.SpaceDemo
import Verif.Space.ParamProps

/-!
# C129: the confidence in the prior decides how tightly new configurations are sampled around the default
-/

namespace Verif.Space

/-! ## Lemmas -/

theorem customFloatScore_name (c : Confidence) : customFloatScore c.name = some c.spread := by
  cases c <;> simp [customFloatScore, Confidence.name, Confidence.spread] <;> norm_num

theorem customCatScore_name (c : Confidence) :
    ∃ w : ℕ, customCatScore c.name = some w ∧ (w : ℝ) = c.weight := by
  cases c <;> simp [customCatScore, Confidence.name, Confidence.weight]

theorem custom_none {t : String} (h : ∀ c : Confidence, c.name ≠ t) :
    customFloatScore t = none ∧ customCatScore t = none := by
  have h1 := h .low
  have h2 := h .medium
  have h3 := h .high
  have h4 := h .ultra
  simp only [Confidence.name] at h1 h2 h3 h4
  constructor
  · unfold customFloatScore
    split <;> simp_all
  · unfold customCatScore
    split <;> simp_all

theorem Confidence.spread_pos (c : Confidence) : 0 < c.spread := by
  cases c <;> simp [Confidence.spread] <;> norm_num

theorem Confidence.weight_pos (c : Confidence) : 0 < c.weight := by
  cases c <;> simp [Confidence.weight]

theorem Hp.enhance_total (c : Confidence) (h : Hp) : ∃ h', h.enhance c.name = some h' := by
  unfold Hp.enhance
  obtain ⟨w, hw, _⟩ := customCatScore_name c
  split_ifs
  · exact ⟨_, rfl⟩
  · cases h <;> simp [customFloatScore_name, hw]

theorem enhance_forall₂ {s s' : SearchSpace} {t : String} (h : s.enhance true (some t) = some s') :
    List.Forall₂ (fun p q => q.1 = p.1 ∧ p.2.enhance t = some q.2) s s' := by
  unfold SearchSpace.enhance at h
  simp only [if_true] at h
  refine (mapM_forall₂ h).imp ?_
  intro p q hpq
  rw [Option.map_eq_some_iff] at hpq
  obtain ⟨a, ha, rfl⟩ := hpq
  exact ⟨rfl, ha⟩

theorem enhance_get {s s' : SearchSpace} {t : String} (h : s.enhance true (some t) = some s')
    {n : String} {a : Hp} (ha : s.get? n = some a) :
    ∃ b, s'.get? n = some b ∧ a.enhance t = some b := by
  obtain ⟨b, hb, _, hr⟩ := forall₂_get? (enhance_forall₂ h) (fun p q h => h.1) ha
  exact ⟨b, hb, hr⟩

theorem Hp.enhance_clone {t : String} {a b : Hp} (h : a.enhance t = some b) : b.clone = a.clone := by
  unfold Hp.enhance at h
  split_ifs at h with hf
  · simp only [Option.some.injEq] at h; rw [h]
  · cases a with
    | float p =>
      simp only [Option.map_eq_some_iff] at h
      obtain ⟨s, _, rfl⟩ := h
      simp only [Hp.clone, FloatParam.clone]
    | int p =>
      simp only [Option.map_eq_some_iff] at h
      obtain ⟨s, _, rfl⟩ := h
      simp only [Hp.clone, IntParam.clone]
    | cat p =>
      simp only [Option.map_eq_some_iff] at h
      obtain ⟨s, _, rfl⟩ := h
      simp only [Hp.clone, CatParam.clone]
    | const p => simp only [Option.some.injEq] at h; rw [h]

theorem enhance_clone {s s' : SearchSpace} {t : String} (h : s.enhance true (some t) = some s') :
    s'.clone = s.clone := by
  have : (s'.mapM fun p => p.2.clone.map fun q => (p.1, q)) =
      s.mapM fun p => p.2.clone.map fun q => (p.1, q) := by
    have hf := enhance_forall₂ h
    clear h
    induction hf with
    | nil => rfl
    | cons hab _ ih => rw [List.mapM_cons, List.mapM_cons, ih, hab.1, Hp.enhance_clone hab.2]
  unfold SearchSpace.clone
  rw [this]

/-! ## The property -/

/-- **C129 (accepted)**: the four levels are accepted for every space. -/
theorem C129_accepted (s : SearchSpace) (c : Confidence) : ∃ s', s.enhance true (some c.name) = some s' := by
  unfold SearchSpace.enhance
  simp only [if_true]
  refine mapM_total fun p _ => ?_
  obtain ⟨q, hq⟩ := Hp.enhance_total c p.2
  exact ⟨(p.1, q), by simp [hq]⟩

/-- **C129 (rejected)**: any other word is an error if there is a parameter it would apply to. -/
theorem C129_rejected (s : SearchSpace) (t : String) (ht : ∀ c : Confidence, c.name ≠ t)
    (hs : ∃ p ∈ s, p.2.Concerned) : s.enhance true (some t) = none := by
  by_contra hne
  obtain ⟨s', h⟩ := Option.ne_none_iff_exists'.mp hne
  obtain ⟨p, hp, hc⟩ := hs
  obtain ⟨q, _, _, hq⟩ := forall₂_mem_left (enhance_forall₂ h) p hp
  obtain ⟨e1, e2⟩ := custom_none ht
  unfold Hp.enhance at hq
  rcases hpp : p.2 with x | x | x | x <;> rw [hpp] at hq hc <;>
    simp only [Hp.Concerned, Hp.isFidelity] at hc <;>
    simp [Hp.isFidelity, hc, e1, e2] at hq

/-- **C129 (floats)**: a number sampled from the prior of a float parameter is its default plus the draw of
the standard normal distribution times the standard deviation of the confidence, on the scale of the
parameter. -/
theorem C129_float (s s' : SearchSpace) (hs : s.InOrder) (c : Confidence)
    (h : s.enhance true (some c.name) = some s') (name : String) (p : FloatParam)
    (hp : s.get? name = some (.float p)) (hf : p.isFidelity = false) (d : ℝ) (hd : p.dflt = some d) (z : ℝ)
    (hz : p.Possible d (c.spread * p.extent) z) :
    ∃ p', s'.get? name = some (.float p') ∧ ∀ u,
      onScale p.log (p'.sampleValue true u z) = onScale p.log d + z * (c.spread * p.extent) := by
  obtain ⟨b, hb, hr⟩ := enhance_get h hp
  unfold Hp.enhance at hr
  simp only [Hp.isFidelity, hf, Bool.false_eq_true, if_false, customFloatScore_name, Option.map_some,
    Option.some.injEq] at hr
  subst hr
  refine ⟨_, hb, fun u => ?_⟩
  have hok := hs.ok _ (Dict.mem_of_get? hp)
  have hi : p.Inv := FloatParam.Used.inv hok.used
  have hpr : p.hasPrior = true := by rw [hi.prior, hd]; rfl
  obtain ⟨z1, z2⟩ := hz
  unfold FloatParam.sampleValue
  simp only [hpr, hd, FloatParam.low, FloatParam.high, and_self, if_true]
  cases hl : p.log with
  | false =>
    simp only [onScale, FloatParam.extent, hl, Bool.false_eq_true, if_false] at z1 z2 ⊢
    have e : z * ((p.upper - p.lower) * c.spread) + d = d + z * (c.spread * (p.upper - p.lower)) := by ring
    rw [e, max_eq_right z1, min_eq_right z2]
  | true =>
    simp only [onScale, FloatParam.extent, hl, if_true] at z1 z2 ⊢
    have hlp := hi.pos hl
    have hup : 0 < p.upper := hlp.trans hi.lt
    have e : z * ((Real.log p.upper - Real.log p.lower) * c.spread) + Real.log d =
      Real.log d + z * (c.spread * (Real.log p.upper - Real.log p.lower)) := by ring
    have w1 := Real.exp_le_exp.mpr z1
    have w2 := Real.exp_le_exp.mpr z2
    rw [Real.exp_log hlp] at w1
    rw [Real.exp_log hup] at w2
    rw [e, max_eq_right w1, min_eq_right w2, Real.log_exp]

/-- **C129 (categoricals)**: the default of a categorical parameter is `weight` times as likely as each other
choice. -/
theorem C129_categorical (s s' : SearchSpace) (hs : s.InOrder) (c : Confidence)
    (h : s.enhance true (some c.name) = some s') (name : String) (p : CatParam Val)
    (hp : s.get? name = some (.cat p)) (x : Val) (hx : p.dflt = some x) :
    ∃ p' probs, s'.get? name = some (.cat p') ∧ p'.priorProbabilities = some probs ∧
      p'.choices = p.choices ∧ probs.length = p.choices.length ∧
      ∀ (i : ℕ) (v : Val), p.choices[i]? = some v → probs[i]? =
        some ((if v = x then c.weight else 1) / (c.weight + (p.choices.length - 1))) := by
  obtain ⟨b, hb, hr⟩ := enhance_get h hp
  obtain ⟨w, hw, hww⟩ := customCatScore_name c
  unfold Hp.enhance at hr
  simp only [Hp.isFidelity, Bool.false_eq_true, if_false, hw, Option.map_some, Option.some.injEq] at hr
  subst hr
  have hok := hs.ok _ (Dict.mem_of_get? hp)
  have hi : p.Inv := CatParam.Used.inv hok.used
  obtain ⟨d, hd, hg⟩ := CatParam.index_some (hi.dflt x hx)
  have hdi : p.dfltIndex = some d := by rw [hi.dfltIndex, hx]; exact hd
  obtain ⟨hlt, hgd⟩ := List.getElem?_eq_some_iff.mp hg
  refine ⟨_, _, hb, by unfold CatParam.priorProbabilities; simp only [hdi]; rfl, rfl, by simp, ?_⟩
  intro i v hv
  obtain ⟨hi', hvi⟩ := List.getElem?_eq_some_iff.mp hv
  have hsum := sum_set_replicate p.choices.length d w hlt
  rw [List.getElem?_map, hsum, hww]
  by_cases hid : i = d
  · subst hid
    have hvx : v = x := by rw [← hvi, hgd]
    rw [List.getElem?_set_self (by simpa using hlt), if_pos hvx]
    simp
    ring
  · have hvx : v ≠ x := by
      intro e
      apply hid
      rw [← hvi, ← hgd] at e
      exact (List.Nodup.getElem_inj_iff hi.nodup).mp e
    rw [List.getElem?_set_ne (Ne.symm hid), if_neg hvx, List.getElem?_eq_getElem (by simpa using hi')]
    simp
    ring

/-- **C129 (narrower)**: more confidence means, for the same draw, a number closer to the default, and a
default choice that is more likely. -/
theorem C129_narrower (s s₁ s₂ : SearchSpace) (hs : s.InOrder) (c₁ c₂ : Confidence)
    (hr : c₁.rank < c₂.rank) (h₁ : s.enhance true (some c₁.name) = some s₁)
    (h₂ : s.enhance true (some c₂.name) = some s₂) (name : String) :
    (∀ p d z, s.get? name = some (.float p) → p.isFidelity = false → p.dflt = some d → z ≠ 0 →
      p.Possible d (c₁.spread * p.extent) z →
      ∃ p₁ p₂, s₁.get? name = some (.float p₁) ∧ s₂.get? name = some (.float p₂) ∧ ∀ u,
        |onScale p.log (p₂.sampleValue true u z) - onScale p.log d| <
          |onScale p.log (p₁.sampleValue true u z) - onScale p.log d|) ∧
    (∀ (p : CatParam Val) (x : Val) (i : ℕ), s.get? name = some (.cat p) → p.dflt = some x →
      p.choices[i]? = some x →
      ∃ (p₁ p₂ : CatParam Val) (w₁ w₂ : List ℝ) (a b : ℝ), s₁.get? name = some (.cat p₁) ∧
        s₂.get? name = some (.cat p₂) ∧
        p₁.priorProbabilities = some w₁ ∧ p₂.priorProbabilities = some w₂ ∧
        w₁[i]? = some a ∧ w₂[i]? = some b ∧ a < b) := by
  have hsp : c₂.spread < c₁.spread := by
    cases c₁ <;> cases c₂ <;> simp [Confidence.rank] at hr <;> simp [Confidence.spread] <;> norm_num
  have hwt : c₁.weight < c₂.weight := by
    cases c₁ <;> cases c₂ <;> simp [Confidence.rank] at hr <;> simp [Confidence.weight] <;> norm_num
  constructor
  · intro p d z hp hf hd hz hz1
    have hok := hs.ok _ (Dict.mem_of_get? hp)
    have hi : p.Inv := FloatParam.Used.inv hok.used
    have hdd := hi.dflt d hd
    have hl0 : onScale p.log p.lower ≤ onScale p.log d := onScale_mono hi.pos hdd.1
    have hl1 : onScale p.log d ≤ onScale p.log p.upper :=
      onScale_mono (fun hl => (hi.pos hl).trans_le hdd.1) hdd.2
    have hlt : 0 < p.extent := by
      have := onScale_strict hi.pos hi.lt
      unfold FloatParam.extent
      linarith
    have hs1 : 0 < c₁.spread * p.extent := mul_pos c₁.spread_pos hlt
    have hs2 : 0 < c₂.spread * p.extent := mul_pos c₂.spread_pos hlt
    have hs12 : c₂.spread * p.extent < c₁.spread * p.extent := mul_lt_mul_of_pos_right hsp hlt
    have hz2 : p.Possible d (c₂.spread * p.extent) z := by
      obtain ⟨a1, a2⟩ := hz1
      constructor
      · rcases le_total 0 z with h0 | h0
        · have := mul_nonneg h0 hs2.le; linarith
        · have := mul_le_mul_of_nonpos_left hs12.le h0; linarith
      · rcases le_total 0 z with h0 | h0
        · have := mul_le_mul_of_nonneg_left hs12.le h0; linarith
        · have := mul_nonpos_of_nonpos_of_nonneg h0 hs2.le; linarith
    obtain ⟨p₁, g₁, e₁⟩ := C129_float s s₁ hs c₁ h₁ name p hp hf d hd z hz1
    obtain ⟨p₂, g₂, e₂⟩ := C129_float s s₂ hs c₂ h₂ name p hp hf d hd z hz2
    refine ⟨p₁, p₂, g₁, g₂, fun u => ?_⟩
    rw [e₁, e₂, add_sub_cancel_left, add_sub_cancel_left, abs_mul z, abs_mul z, abs_of_pos hs1, abs_of_pos hs2]
    exact mul_lt_mul_of_pos_left hs12 (abs_pos.mpr hz)
  · intro p x i hp hx hix
    have hok := hs.ok _ (Dict.mem_of_get? hp)
    have hi : p.Inv := CatParam.Used.inv hok.used
    have h2 : (2 : ℝ) ≤ p.choices.length := by exact_mod_cast hi.two
    obtain ⟨p₁, w₁, g₁, q₁, _, _, f₁⟩ := C129_categorical s s₁ hs c₁ h₁ name p hp x hx
    obtain ⟨p₂, w₂, g₂, q₂, _, _, f₂⟩ := C129_categorical s s₂ hs c₂ h₂ name p hp x hx
    refine ⟨p₁, p₂, w₁, w₂, _, _, g₁, g₂, q₁, q₂, f₁ i x hix, f₂ i x hix, ?_⟩
    have k1 := c₁.weight_pos
    have k2 := c₂.weight_pos
    simp only [if_true]
    rw [div_lt_div_iff₀ (by linarith) (by linarith)]
    nlinarith

/-- **C129 (the rest)**: names, declarations and values stay, fidelities and constants altogether; nothing
changes if priors are not used or no confidence is given; and doing it again, as the brackets of Hyperband
do, changes nothing. -/
theorem C129_rest (s : SearchSpace) :
    (∀ c s', s.enhance true (some c) = some s' →
      List.Forall₂ (fun p q => q.1 = p.1 ∧ p.2.SameDecl q.2 ∧ q.2.value = p.2.value ∧
        (¬ p.2.Concerned → q.2 = p.2)) s s' ∧ s'.enhance true (some c) = some s') ∧
    (∀ c, s.enhance false c = some s) ∧ s.enhance true none = some s := by
  refine ⟨fun c s' h => ⟨?_, ?_⟩, fun c => by simp [SearchSpace.enhance], by simp [SearchSpace.enhance]⟩
  · refine (enhance_forall₂ h).imp ?_
    rintro ⟨n, a⟩ ⟨m, b⟩ ⟨rfl, hab⟩
    replace hab : a.enhance c = some b := hab
    unfold Hp.enhance at hab
    split_ifs at hab with hf
    · simp only [Option.some.injEq] at hab
      subst hab
      exact ⟨rfl, Hp.SameDecl.refl _, rfl, fun _ => rfl⟩
    · cases a with
      | float p =>
        simp only [Option.map_eq_some_iff] at hab
        obtain ⟨s, _, rfl⟩ := hab
        exact ⟨rfl, by simp [Hp.SameDecl], rfl, fun hn => absurd (by simpa [Hp.Concerned] using hf) hn⟩
      | int p =>
        simp only [Option.map_eq_some_iff] at hab
        obtain ⟨s, _, rfl⟩ := hab
        exact ⟨rfl, by simp [Hp.SameDecl], rfl, fun hn => absurd (by simpa [Hp.Concerned] using hf) hn⟩
      | cat p =>
        simp only [Option.map_eq_some_iff] at hab
        obtain ⟨s, _, rfl⟩ := hab
        exact ⟨rfl, by simp [Hp.SameDecl], rfl, fun hn => absurd (by simpa [Hp.Concerned] using hf) hn⟩
      | const p =>
        simp only [Option.some.injEq] at hab
        subst hab
        exact ⟨rfl, Hp.SameDecl.refl _, rfl, fun _ => rfl⟩
  · have hf := enhance_forall₂ h
    unfold SearchSpace.enhance
    simp only [if_true]
    clear h
    induction hf with
    | nil => rfl
    | @cons p q l l' hab _ ih =>
      have hq : q.2.enhance c = some q.2 := by
        have hab := hab.2
        unfold Hp.enhance at hab
        split_ifs at hab with hf
        · simp only [Option.some.injEq] at hab
          rw [← hab]
          simp [Hp.enhance, hf]
        · cases hp2 : p.2 with
          | float p' =>
            rw [hp2] at hab hf
            simp only [Option.map_eq_some_iff] at hab
            obtain ⟨s, hs, e⟩ := hab
            rw [← e]
            simp [Hp.enhance, Hp.isFidelity, hs]
          | int p' =>
            rw [hp2] at hab hf
            simp only [Option.map_eq_some_iff] at hab
            obtain ⟨s, hs, e⟩ := hab
            rw [← e]
            simp [Hp.enhance, Hp.isFidelity, hs]
          | cat p' =>
            rw [hp2] at hab hf
            simp only [Option.map_eq_some_iff] at hab
            obtain ⟨s, hs, e⟩ := hab
            rw [← e]
            simp [Hp.enhance, Hp.isFidelity, hs]
          | const p' =>
            rw [hp2] at hab hf
            simp only [Option.some.injEq] at hab
            rw [← hab]
            simp [Hp.enhance, Hp.isFidelity]
      rw [List.mapM_cons, ih, hq]
      rfl

/-! ## What fails -/

/-- **C129 (integers) fails**: an integer parameter is sampled as before, whatever the confidence. -/
theorem C129_integer_fails (s s' : SearchSpace) (t : String) (h : s.enhance true (some t) = some s')
    (name : String) (p : IntParam) (hp : s.get? name = some (.int p)) :
    ∃ p', s'.get? name = some (.int p') ∧ ∀ b u z, p'.sampleValue b u z = p.sampleValue b u z ∧
      p'.sample b u z = p.sample b u z := by
  obtain ⟨b, hb, hr⟩ := enhance_get h hp
  unfold Hp.enhance at hr
  split_ifs at hr with hf
  · simp only [Option.some.injEq] at hr
    subst hr
    exact ⟨p, hb, fun _ _ _ => ⟨rfl, rfl⟩⟩
  · simp only [Option.map_eq_some_iff] at hr
    obtain ⟨x, _, rfl⟩ := hr
    refine ⟨_, hb, fun b u z => ⟨rfl, ?_⟩⟩
    simp only [IntParam.sample, IntParam.clone, IntParam.sampleValue]
    rfl

/-- **C129 (scores) fails**: copies of the space, the configurations loaded from it and the scores with which
PriorBand weighs the prior against the incumbent do not depend on the confidence. -/
theorem C129_scores_fails (s s' : SearchSpace) (t : String) (h : s.enhance true (some t) = some s') :
    s'.clone = s.clone ∧ (∀ values, s'.fromDict values = s.fromDict values) ∧
      ∀ config inc, SearchSpace.computeScores config s' inc = SearchSpace.computeScores config s inc := by
  have hc := enhance_clone h
  refine ⟨hc, fun v => ?_, fun a b => ?_⟩
  · unfold SearchSpace.fromDict
    rw [hc]
  · unfold SearchSpace.computeScores
    rw [hc]

/-- **C129 (own confidence) fails**: the confidence a user gave to a float parameter plays no role for its
samples once `prior_confidence` is set (which it is by default, to "medium"). -/
theorem C129_own_confidence_fails (l u : ℝ) (log : Bool) (d : Option ℝ) (s₁ s₂ : ℝ) (p₁ p₂ : FloatParam)
    (h₁ : FloatParam.make l u log false d s₁ = some p₁) (h₂ : FloatParam.make l u log false d s₂ = some p₂)
    (c : Confidence) : ∃ q₁ q₂, (Hp.float p₁).enhance c.name = some (.float q₁) ∧
      (Hp.float p₂).enhance c.name = some (.float q₂) ∧
      ∀ b x z, q₁.sampleValue b x z = q₂.sampleValue b x z := by
  obtain ⟨i1, a1, a2, a3, a4, a5, _⟩ := FloatParam.make_inv h₁
  obtain ⟨i2, b1, b2, b3, b4, b5, _⟩ := FloatParam.make_inv h₂
  refine ⟨{ p₁ with score := c.spread }, { p₂ with score := c.spread },
    by simp [Hp.enhance, Hp.isFidelity, a4, customFloatScore_name],
    by simp [Hp.enhance, Hp.isFidelity, b4, customFloatScore_name], fun b x z => ?_⟩
  have e : p₁.hasPrior = p₂.hasPrior := by rw [i1.prior, i2.prior, a5, b5]
  simp only [FloatParam.sampleValue, FloatParam.low, FloatParam.high, a1, a2, a3, a5, b1, b2, b3, b5, e]

/-! ## The hypotheses can be met -/

/-- The learning rate and the activation function of the demonstration space, with high confidence. -/
example : ∃ s', demoSpace.enhance true (some "high") = some s' ∧
    (∃ p', s'.get? "lr" = some (.float p') ∧ ∀ u, Real.log (p'.sampleValue true u 1) =
      Real.log 2 + 1 * (0.125 * (Real.log 10 - Real.log 1))) ∧
    (∃ p' probs, s'.get? "act" = some (.cat p') ∧ p'.priorProbabilities = some probs ∧
      probs[1]? = some (6 / 8 : ℝ) ∧ probs[0]? = some (1 / 8 : ℝ)) := by
  obtain ⟨s', h⟩ := C129_accepted demoSpace .high
  refine ⟨s', h, ?_, ?_⟩
  · have hz : demoLr.Possible 2 (Confidence.high.spread * demoLr.extent) 1 := by
      have h10 : Real.log 10 = Real.log 2 + Real.log 5 := by
        rw [← Real.log_mul (by norm_num) (by norm_num)]; norm_num
      have h2 : 0 < Real.log 2 := Real.log_pos (by norm_num)
      have h25 : Real.log 2 ≤ Real.log 5 := Real.log_le_log (by norm_num) (by norm_num)
      simp only [FloatParam.Possible, FloatParam.extent, onScale, demoLr, if_true, Real.log_one,
        Confidence.spread, h10]
      constructor <;> linarith
    have := C129_float demoSpace s' demoSpace_inOrder .high h "lr" demoLr
      (by simp [demoSpace, Dict.get?]) rfl 2 rfl 1 hz
    simpa [onScale, FloatParam.extent, demoLr, Confidence.spread] using this
  · obtain ⟨p', probs, h1, h2, _, _, h5⟩ := C129_categorical demoSpace s' demoSpace_inOrder .high h "act"
      demoAct (by simp [demoSpace, Dict.get?]) (.str "tanh") rfl
    refine ⟨p', probs, h1, h2, ?_, ?_⟩
    · rw [h5 1 (.str "tanh") (by simp [demoAct])]
      simp [Confidence.weight, demoAct]
      norm_num
    · rw [h5 0 (.str "relu") (by simp [demoAct])]
      simp [Confidence.weight, demoAct]
      norm_num

example : demoSpace.enhance true (some "certain") = none :=
  C129_rejected _ _ (by intro c; cases c <;> simp [Confidence.name])
    ⟨("lr", .float demoLr), by simp [demoSpace], rfl⟩

end Verif.Space
