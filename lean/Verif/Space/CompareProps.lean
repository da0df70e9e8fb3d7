import Verif.Space.SpaceProps
import Mathlib.Tactic.NormNum
import Mathlib.Tactic.FieldSimp
import Mathlib.Tactic.Ring

/-!
# Comparing configurations and setting them from a dictionary (C64, C65)
-/

namespace Verif.Space

/-- Exactly the numbers up to one half are rounded to zero. -/
theorem rnd_eq_zero_iff (x : ℝ) : rnd x = 0 ↔ |x| ≤ 1 / 2 := by
  constructor
  · intro h
    have := rnd_near x
    rw [h] at this
    simpa [abs_neg] using this
  · intro h
    rw [abs_le] at h
    have h0 : rnd x ≤ rnd (1 / 2 : ℝ) := rnd_mono h.2
    have h1 : rnd (-(1 / 2) : ℝ) ≤ rnd x := rnd_mono h.1
    have e0 : rnd (1 / 2 : ℝ) = 0 := by
      have : ⌊(1 / 2 : ℝ)⌋ = 0 := by norm_num
      unfold rnd
      rw [this]
      norm_num
    have e1 : rnd (-(1 / 2) : ℝ) = 0 := by
      have : ⌊(-(1 / 2) : ℝ)⌋ = -1 := by rw [Int.floor_eq_iff]; norm_num
      unfold rnd
      rw [this]
      norm_num
    omega

namespace SearchSpace

/-- The two values of a parameter are the same as far as a comparison to `decimals` digits can
tell: numbers of a float parameter are at most half a unit of the last digit apart on the
normalised scale, all other values are equal. -/
def SameValue (decimals : ℕ) (a b : Hp) : Prop :=
  match a, b with
  | .float p, .float q => ∃ x y, p.value = some x ∧ q.value = some y ∧
      |p.valueToNormalized x - q.valueToNormalized y| ≤ 1 / 2 * (1 / 10) ^ decimals
  | a, b => a.value = b.value

theorem roundsToNonzero_iff (x : ℝ) (d : ℕ) :
    (!roundsToNonzero x d) = true ↔ |x| ≤ 1 / 2 * (1 / 10) ^ d := by
  unfold roundsToNonzero
  have hp : (0 : ℝ) < 10 ^ d := by positivity
  rw [Bool.not_eq_true', decide_eq_false_iff_not, not_not, rnd_eq_zero_iff, abs_mul,
    abs_of_pos hp, one_div_pow, ← div_eq_mul_one_div, le_div_iff₀ hp]

theorem sameHp_iff (isFloat : Val → Bool) (decimals : ℕ) {a b : Hp} (ha : a.Ok) (hb : b.Ok)
    (hd : a.SameDecl b) (hav : a.value ≠ none) (hbv : b.value ≠ none) :
    ∃ r, sameHp isFloat decimals a b = some r ∧ (r = true ↔ SameValue decimals a b) := by
  cases a with
  | float p =>
    cases b with
    | float q =>
      obtain ⟨x, hx⟩ : ∃ x, p.value = some x := by
        simp only [Hp.value, ne_eq, Option.map_eq_none_iff] at hav
        exact Option.ne_none_iff_exists'.mp hav
      obtain ⟨y, hy⟩ : ∃ x, q.value = some x := by
        simp only [Hp.value, ne_eq, Option.map_eq_none_iff] at hbv
        exact Option.ne_none_iff_exists'.mp hbv
      refine ⟨!roundsToNonzero (p.valueToNormalized x - q.valueToNormalized y) decimals,
        by simp only [sameHp, hx, hy], ?_⟩
      rw [roundsToNonzero_iff]
      simp [SameValue, hx, hy]
    | _ => simp [Hp.SameDecl] at hd
  | int p =>
    cases b with
    | int q =>
      refine ⟨_, rfl, ?_⟩
      simp only [decide_eq_true_eq, SameValue, Hp.value]
      constructor
      · intro h; rw [h]
      · intro h
        cases hp : p.value <;> cases hq : q.value <;> simp_all [Hp.value]
    | _ => simp [Hp.SameDecl] at hd
  | cat p =>
    cases b with
    | cat q =>
      simp only [Hp.value] at hav hbv
      obtain ⟨v, hv⟩ := Option.ne_none_iff_exists'.mp hav
      obtain ⟨w, hw⟩ := Option.ne_none_iff_exists'.mp hbv
      have hvm : v ∈ p.choices := ha.value v hv
      have hwm : w ∈ q.choices := hb.value w hw
      obtain ⟨i, hi, hgi⟩ := CatParam.index_some hvm
      obtain ⟨j, hj, hgj⟩ := CatParam.index_some hwm
      have hch : q.choices = p.choices := hd.1
      by_cases hf : p.value.any isFloat
      · refine ⟨!roundsToNonzero ((i : ℝ) - (j : ℝ)) decimals,
          by simp only [sameHp, if_pos hf]; rw [hv, hw]; simp [hi, hj], ?_⟩
        have hint : (i : ℝ) - (j : ℝ) = (((i : ℤ) - (j : ℤ) : ℤ) : ℝ) := by push_cast; rfl
        have : (!roundsToNonzero ((i : ℝ) - (j : ℝ)) decimals) = true ↔ i = j := by
          unfold roundsToNonzero
          rw [Bool.not_eq_true', decide_eq_false_iff_not, not_not]
          have e : ((i : ℝ) - (j : ℝ)) * 10 ^ decimals =
              ((((i : ℤ) - (j : ℤ)) * 10 ^ decimals : ℤ) : ℝ) := by push_cast; rfl
          rw [e, rnd_intCast]
          constructor
          · intro h
            have := (mul_eq_zero.mp h).resolve_right (by positivity)
            omega
          · rintro rfl; simp
        have h2 : i = j ↔ SameValue decimals (.cat p) (.cat q) := by
          simp only [SameValue, Hp.value, hv, hw, Option.some.injEq]
          constructor
          · rintro rfl
            rw [hch, hgi] at hgj
            simpa using hgj
          · rintro rfl
            rw [hch, hi] at hj
            simpa using hj
        exact this.trans h2
      · refine ⟨_, by simp only [sameHp, if_neg hf]; rfl, ?_⟩
        simp [SameValue, Hp.value]
    | _ => simp [Hp.SameDecl] at hd
  | const p =>
    cases b with
    | const q =>
      have hpq : q.value = p.value := hd.1
      by_cases hf : isFloat p.value
      · refine ⟨_, by simp only [sameHp, if_pos hf]; rfl, ?_⟩
        rw [roundsToNonzero_iff]
        simp only [if_true, sub_self, abs_zero, SameValue, Hp.value, hpq, iff_true]
        positivity
      · refine ⟨_, by simp only [sameHp, if_neg hf]; rfl, ?_⟩
        simp [SameValue, Hp.value, hpq]
    | _ => simp [Hp.SameDecl] at hd

/-- **C64**: two complete configurations of one space are reported equal exactly if every
parameter, except the fidelity if it is to be left out, has the same value up to the given number
of digits. -/
theorem C64_equal_iff (isFloat : Val → Bool) (s t : SearchSpace) (hs : s.InOrder) (ht : t.InOrder)
    (hst : s.Pointwise (fun _ _ _ => True) t) (hsv : s.Valued) (htv : t.Valued)
    (includeFidelity : Bool) (decimals : ℕ) :
    ∃ r, s.isEqualValue isFloat t includeFidelity decimals = some r ∧
      (r = true ↔ s.Pointwise (fun _ a b => (a.isFidelity = true ∧ includeFidelity = false) ∨
        SameValue decimals a b) t) := by
  have hk : Dict.keys t = Dict.keys s := forall₂_keys_eq hst (fun p q h => h.1)
  unfold isEqualValue
  rw [if_pos (by rw [hk]; exact ⟨fun _ h => h, fun _ h => h⟩)]
  have gen : ∀ (u v : SearchSpace), u.Pointwise (fun _ _ _ => True) v →
      (∀ p ∈ u, p.2.Ok ∧ p.2.value ≠ none) → (∀ p ∈ v, p.2.Ok ∧ p.2.value ≠ none ∧
        Dict.get? t p.1 = some p.2) →
      ∃ r, sameLoop isFloat includeFidelity decimals t u = some r ∧
        (r = true ↔ u.Pointwise (fun _ a b => (a.isFidelity = true ∧ includeFidelity = false) ∨
          SameValue decimals a b) v) := by
    intro u v huv
    induction huv with
    | nil =>
      intro _ _
      exact ⟨true, rfl, by simp [Pointwise]⟩
    | @cons p q u v hpq huv ih =>
      intro h1 h2
      obtain ⟨r, hr, hri⟩ := ih (fun p hp => h1 p (by simp [hp])) (fun p hp => h2 p (by simp [hp]))
      obtain ⟨k, a⟩ := p
      obtain ⟨k', b⟩ := q
      obtain ⟨rfl, hd, _⟩ := hpq
      obtain ⟨ha, hav⟩ := h1 _ (List.mem_cons_self)
      obtain ⟨hb, hbv, hbt⟩ := h2 _ (List.mem_cons_self)
      simp only at ha hav hb hbv hbt hd
      unfold sameLoop
      by_cases hf : a.isFidelity = true ∧ includeFidelity = false
      · rw [if_pos hf]
        refine ⟨r, hr, ?_⟩
        rw [hri]
        unfold Pointwise
        rw [List.forall₂_cons]
        simp [hd, hf]
      · rw [if_neg hf]
        obtain ⟨e, he, hei⟩ := sameHp_iff isFloat decimals ha hb hd hav hbv
        simp only [hbt, Option.bind_eq_bind, Option.bind_some, he]
        unfold Pointwise
        rw [List.forall₂_cons]
        cases e with
        | true =>
          refine ⟨r, by simp [hr], ?_⟩
          rw [hri]
          simp only [true_and, hd]
          unfold Pointwise
          simp [hei.mp rfl]
        | false =>
          refine ⟨false, by simp, ?_⟩
          have : ¬ SameValue decimals a b := fun h => by simpa using hei.mpr h
          simp [hf, this]
  exact gen s t hst (fun p hp => ⟨hs.ok p hp, hsv p hp⟩)
    (fun p hp => ⟨ht.ok p hp, htv p hp, Dict.get?_of_mem ht.nodup hp⟩)

theorem SameValue.symm' {decimals : ℕ} {a b : Hp} (h : SameValue decimals a b) :
    SameValue decimals b a := by
  cases a <;> cases b <;> simp only [SameValue] at h ⊢
  all_goals first
    | exact h.symm
    | (obtain ⟨x, y, hx, hy, hxy⟩ := h
       exact ⟨y, x, hy, hx, by rwa [abs_sub_comm]⟩)

/-- **C64, symmetry** -/
theorem C64_symmetric (isFloat : Val → Bool) (s t : SearchSpace) (hs : s.InOrder) (ht : t.InOrder)
    (hst : s.Pointwise (fun _ _ _ => True) t) (hsv : s.Valued) (htv : t.Valued)
    (includeFidelity : Bool) (decimals : ℕ) :
    s.isEqualValue isFloat t includeFidelity decimals =
      t.isEqualValue isFloat s includeFidelity decimals := by
  have hts : t.Pointwise (fun _ _ _ => True) s :=
    List.Forall₂.flip (List.Forall₂.imp (fun p q h => ⟨h.1.symm, h.2.1.symm, trivial⟩) hst)
  obtain ⟨r, hr, hri⟩ := C64_equal_iff isFloat s t hs ht hst hsv htv includeFidelity decimals
  obtain ⟨r', hr', hri'⟩ := C64_equal_iff isFloat t s ht hs hts htv hsv includeFidelity decimals
  rw [hr, hr']
  have hflip : ∀ u v : SearchSpace, u.Pointwise (fun _ a b =>
      (a.isFidelity = true ∧ includeFidelity = false) ∨ SameValue decimals a b) v →
      v.Pointwise (fun _ a b =>
      (a.isFidelity = true ∧ includeFidelity = false) ∨ SameValue decimals a b) u := by
    intro u v h
    refine List.Forall₂.flip (List.Forall₂.imp ?_ h)
    rintro p q ⟨h1, h2, h3⟩
    refine ⟨h1.symm, h2.symm, ?_⟩
    rcases h3 with h3 | h3
    · left; rw [h2.isFidelity]; exact h3
    · right; exact h3.symm'
  have : r = true ↔ r' = true := by
    rw [hri, hri']
    exact ⟨hflip s t, hflip t s⟩
  congr 1
  cases r <;> cases r' <;> simp_all

/-- **C64, reflexivity** -/
theorem C64_reflexive (isFloat : Val → Bool) (s : SearchSpace) (hs : s.InOrder) (hsv : s.Valued)
    (includeFidelity : Bool) (decimals : ℕ) :
    s.isEqualValue isFloat s includeFidelity decimals = some true := by
  have hr : ∀ R : String → Hp → Hp → Prop, (∀ p ∈ s, R p.1 p.2 p.2) → s.Pointwise R s := by
    intro R h
    unfold Pointwise
    rw [List.forall₂_same]
    exact fun p hp => ⟨rfl, Hp.SameDecl.refl _, h p hp⟩
  obtain ⟨r, hr', hri⟩ := C64_equal_iff isFloat s s hs hs (hr _ fun _ _ => trivial) hsv hsv
    includeFidelity decimals
  rw [hr', hri.mpr]
  apply hr
  rintro ⟨k, a⟩ hp
  right
  have := hsv _ hp
  cases a with
  | float p =>
    simp only [Hp.value, ne_eq, Option.map_eq_none_iff] at this
    obtain ⟨x, hx⟩ := Option.ne_none_iff_exists'.mp this
    refine ⟨x, x, hx, hx, ?_⟩
    simp only [sub_self, abs_zero]
    positivity
  | _ => rfl

/-- Configurations of the demonstration space can be compared. -/
example : ∃ c : SearchSpace, c.InOrder ∧ c.Valued ∧
    c.isEqualValue (fun _ => false) c true 8 = some true := by
  obtain ⟨c, h1, _, h2⟩ := demo_config
  exact ⟨c, h1, h2, C64_reflexive _ c h1 h2 _ _⟩

/-- **C64 fails** for the configurations of a grid, in which every parameter is a constant: all
constants that are floats count as equal, whatever their values. -/
theorem C64_float_constants_fails (isFloat : Val → Bool) (k : String) (x y : ℝ)
    (hx : isFloat (.num x) = true) (includeFidelity : Bool) (decimals : ℕ) :
    isEqualValue isFloat [(k, .const ⟨.num x, .num x⟩)] [(k, .const ⟨.num y, .num y⟩)]
      includeFidelity decimals = some true := by
  have h0 : (!roundsToNonzero 0 decimals) = true := by
    rw [roundsToNonzero_iff, abs_zero]; positivity
  have hs : sameHp isFloat decimals (.const ⟨.num x, .num x⟩) (.const ⟨.num y, .num y⟩) =
      some true := by
    simp only [sameHp, hx, if_true, sub_self, h0]
  simp [isEqualValue, sameLoop, Dict.get?, Hp.isFidelity, Dict.keys, hs]

/-- **C64 fails** to be an equivalence: equality up to a number of digits is not transitive. -/
theorem C64_not_transitive_fails (isFloat : Val → Bool) :
    ∃ a b c : SearchSpace, a.InOrder ∧ b.InOrder ∧ c.InOrder ∧
      a.isEqualValue isFloat b true 1 = some true ∧ b.isEqualValue isFloat c true 1 = some true ∧
      a.isEqualValue isFloat c true 1 = some false := by
  have mk : ∀ x : ℝ, 0 ≤ x → x ≤ 1 → ∃ p : FloatParam, p.Used ∧ p.lower = 0 ∧ p.upper = 1 ∧
      p.log = false ∧ p.value = some x ∧ p.dflt = none ∧ p.isFidelity = false := by
    intro x h0 h1
    have hm : FloatParam.make 0 1 false false none 1 =
        some ⟨0, 1, false, false, none, false, 1, 1, none, none⟩ := by
      simp [FloatParam.make]
    refine ⟨_, .setValue (some x) (.make hm), ?_⟩
    simp [FloatParam.setValue, h0, h1]
  have inO : ∀ (p : FloatParam) (x : ℝ), p.Used → p.lower = 0 → p.upper = 1 → p.value = some x →
      p.dflt = none → 0 ≤ x → x ≤ 1 → InOrder [("a", .float p)] := by
    intro p x hu hl hu' hv hd h0 h1
    refine ⟨[("a", .float p)], by simp [Dict.keys], ?_, ?_⟩
    · intro q hq
      simp only [List.mem_singleton] at hq
      subst hq
      refine ⟨hu, ?_, ?_⟩
      · intro v h
        simp only [Hp.value, hv, Option.map_some, Option.some.injEq] at h
        exact ⟨x, h.symm, by rw [hl]; exact h0, by rw [hu']; exact h1⟩
      · intro v h; simp [Hp.dflt, hd] at h
    · have hs : Dict.sorted [("a", Hp.float p)] = [("a", .float p)] := by simp [Dict.sorted]
      unfold SearchSpace.make
      rw [hs]
      have : ¬ 1 < ([("a", Hp.float p)].filter fun q => q.2.isFidelity).length := by
        have := List.length_filter_le (fun q : String × Hp => q.2.isFidelity) [("a", Hp.float p)]
        simp only [List.length_singleton] at this
        omega
      simp only [if_neg this]
  have eq : ∀ (p q : FloatParam) (x y : ℝ), p.lower = 0 → p.upper = 1 → p.log = false →
      p.value = some x → q.lower = 0 → q.upper = 1 → q.log = false → q.value = some y →
      isEqualValue isFloat [("a", .float p)] [("a", .float q)] true 1 =
        some (!roundsToNonzero (x - y) 1) := by
    intro p q x y p1 p2 p3 p4 q1 q2 q3 q4
    have e1 : p.valueToNormalized x = x := by
      simp [FloatParam.valueToNormalized, FloatParam.low, FloatParam.high, p1, p2, p3]
    have e2 : q.valueToNormalized y = y := by
      simp [FloatParam.valueToNormalized, FloatParam.low, FloatParam.high, q1, q2, q3]
    have hs : sameHp isFloat 1 (.float p) (.float q) = some (!roundsToNonzero (x - y) 1) := by
      simp only [sameHp, p4, q4, e1, e2]
    cases hz : roundsToNonzero (x - y) 1 <;>
      simp [isEqualValue, sameLoop, Dict.get?, Dict.keys, hs, hz]
  obtain ⟨p, pu, p1, p2, p3, p4, p5, _⟩ := mk 0 (by norm_num) (by norm_num)
  obtain ⟨q, qu, q1, q2, q3, q4, q5, _⟩ := mk (1 / 20) (by norm_num) (by norm_num)
  obtain ⟨r, ru, r1, r2, r3, r4, r5, _⟩ := mk (1 / 10) (by norm_num) (by norm_num)
  refine ⟨_, _, _, inO p 0 pu p1 p2 p4 p5 (by norm_num) (by norm_num),
    inO q _ qu q1 q2 q4 q5 (by norm_num) (by norm_num),
    inO r _ ru r1 r2 r4 r5 (by norm_num) (by norm_num), ?_, ?_, ?_⟩
  · rw [eq p q _ _ p1 p2 p3 p4 q1 q2 q3 q4, Option.some.injEq, roundsToNonzero_iff]
    norm_num [abs_le]
  · rw [eq q r _ _ q1 q2 q3 q4 r1 r2 r3 r4, Option.some.injEq, roundsToNonzero_iff]
    norm_num [abs_le]
  · rw [eq p r _ _ p1 p2 p3 p4 r1 r2 r3 r4, Option.some.injEq, ← Bool.not_eq_true,
      roundsToNonzero_iff]
    norm_num [abs_le]

/-! ## C65: setting values and defaults from a dictionary -/

/-- What `set_hyperparameters_from_dict` is to make of a parameter for which the dictionary has
the value `v`. -/
def Updated (o : SetOpts) (v : Val) (h q : Hp) : Prop :=
  (h.IsConst → q = if o.overwriteConstants then .const ⟨v, v⟩ else h) ∧
  (¬ h.IsConst → h.SameRange q ∧
    q.value = (if o.values then some v else if o.deleteValues then none else h.value) ∧
    q.dflt = (if o.defaults then some v else if o.deleteDefaults then none else h.dflt))

theorem setHp_ok (o : SetOpts) {h : Hp} (hok : h.Ok) {v : Val}
    (hconf : o.confidence ≠ none)
    (hc : h.IsConst → o.overwriteConstants = true → o.values = true ∧ o.defaults = true)
    (hv : ¬ h.IsConst → h.Accepts v) :
    (setHp o h v).raised = false ∧ (setHp o h v).st.Ok ∧ Updated o v h (setHp o h v).st := by
  by_cases hcst : h.IsConst
  · cases h with
    | const p =>
      unfold setHp
      simp only
      by_cases ho : o.overwriteConstants = false
      · rw [if_pos ho]
        exact ⟨rfl, hok, fun _ => by simp [ho], fun h => absurd hcst h⟩
      · rw [if_neg ho]
        have ho' : o.overwriteConstants = true := by simpa using ho
        obtain ⟨h1, h2⟩ := hc hcst ho'
        rw [if_neg (by simp [h1, h2])]
        refine ⟨rfl, ⟨rfl, ?_, ?_⟩, fun _ => by simp [ho'], fun h => absurd hcst h⟩
        · intro w hw; simpa [Hp.value, Hp.Accepts] using hw.symm
        · intro w hw; simpa [Hp.dflt, Hp.Accepts] using hw.symm
    | _ => simp [Hp.IsConst] at hcst
  · obtain ⟨cf, hcf⟩ := Option.ne_none_iff_exists'.mp hconf
    have hv := hv hcst
    have hunf : setHp o h v = ((((((⟨h, false⟩ : Call Hp)
      |>.andThen fun h => if o.deleteDefaults then h.unsetDefault else ⟨h, false⟩)
      |>.andThen fun h => if o.deleteValues then h.unsetValue else ⟨h, false⟩)
      |>.andThen fun h => if o.defaults then h.setDefault v else ⟨h, false⟩)
      |>.andThen fun h => if o.defaults then h.setConfidence o.confidence else ⟨h, false⟩)
      |>.andThen fun h => if o.values then h.setValue v else ⟨h, false⟩) := by
      cases h <;> first | rfl | exact absurd trivial hcst
    rw [hunf]
    -- a statement that changes the default and the value as told, and never raises
    have step : ∀ (c : Call Hp) (f : Hp → Call Hp) (val dfl val' dfl' : Option Val),
        (c.raised = false ∧ h.SameRange c.st ∧ c.st.Ok ∧ c.st.value = val ∧ c.st.dflt = dfl) →
        (∀ g : Hp, g.Ok → h.SameRange g → g.value = val → g.dflt = dfl →
          (f g).raised = false ∧ g.SameRange (f g).st ∧ (f g).st.Ok ∧ (f g).st.value = val' ∧
            (f g).st.dflt = dfl') →
        (c.andThen f).raised = false ∧ h.SameRange (c.andThen f).st ∧ (c.andThen f).st.Ok ∧
          (c.andThen f).st.value = val' ∧ (c.andThen f).st.dflt = dfl' := by
      intro c f val dfl val' dfl' ⟨h1, h2, h3, h4, h5⟩ hf
      obtain ⟨f1, f2, f3, f4, f5⟩ := hf c.st h3 h2 h4 h5
      have : c.andThen f = f c.st := by simp [Call.andThen, h1]
      rw [this]
      exact ⟨f1, h2.trans f2, f3, f4, f5⟩
    have s0 : ((⟨h, false⟩ : Call Hp)).raised = false ∧ h.SameRange h ∧ h.Ok ∧
        h.value = h.value ∧ h.dflt = h.dflt := ⟨rfl, Hp.SameRange.refl h, hok, rfl, rfl⟩
    have s1 := step _ (fun h => if o.deleteDefaults then h.unsetDefault else ⟨h, false⟩) _ _
      h.value (if o.deleteDefaults then none else h.dflt) s0 (by
        intro g hg hr e1 e2
        cases o.deleteDefaults with
        | true =>
          obtain ⟨u1, u2, u3, u4, u5⟩ := Hp.unsetDefault_ok hg (hr.isConst.not.mp hcst)
          exact ⟨u1, u2, u5, u3.trans e1, u4⟩
        | false => exact ⟨rfl, Hp.SameRange.refl g, hg, e1, e2⟩)
    have s2 := step _ (fun h => if o.deleteValues then h.unsetValue else ⟨h, false⟩) _ _
      (if o.deleteValues then none else h.value) (if o.deleteDefaults then none else h.dflt) s1 (by
        intro g hg hr e1 e2
        cases o.deleteValues with
        | true =>
          obtain ⟨u1, u2, u3, u4, u5⟩ := Hp.unsetValue_ok hg (hr.isConst.not.mp hcst)
          exact ⟨u1, u2, u5, u3, u4.trans e2⟩
        | false => exact ⟨rfl, Hp.SameRange.refl g, hg, e1, e2⟩)
    have s3 := step _ (fun h => if o.defaults then h.setDefault v else ⟨h, false⟩) _ _
      (if o.deleteValues then none else h.value)
      (if o.defaults then some v else if o.deleteDefaults then none else h.dflt) s2 (by
        intro g hg hr e1 e2
        cases o.defaults with
        | true =>
          obtain ⟨u1, u2, u3, u4, u5⟩ := Hp.setDefault_ok hg (hr.isConst.not.mp hcst)
            ((hr.accepts v).mp hv)
          exact ⟨u1, u2, u5, u3.trans e1, u4⟩
        | false => exact ⟨rfl, Hp.SameRange.refl g, hg, e1, e2⟩)
    have s4 := step _ (fun h => if o.defaults then h.setConfidence o.confidence else ⟨h, false⟩) _ _
      (if o.deleteValues then none else h.value)
      (if o.defaults then some v else if o.deleteDefaults then none else h.dflt) s3 (by
        intro g hg hr e1 e2
        rw [hcf]
        by_cases hdef : o.defaults = true
        · simp only [if_pos hdef] at e2 ⊢
          obtain ⟨u1, u2, u3, u4, u5⟩ := Hp.setConfidence_ok hg cf
          exact ⟨u1, u2, u5, u3.trans e1, u4.trans e2⟩
        · simp only [if_neg hdef] at e2 ⊢
          exact ⟨trivial, Hp.SameRange.refl g, hg, e1, e2⟩)
    have s5 := step _ (fun h => if o.values then h.setValue v else ⟨h, false⟩) _ _
      (if o.values then some v else if o.deleteValues then none else h.value)
      (if o.defaults then some v else if o.deleteDefaults then none else h.dflt) s4 (by
        intro g hg hr e1 e2
        cases o.values with
        | true =>
          obtain ⟨u1, u2, u3, u4⟩ := Hp.setValue_ok hg ((hr.accepts v).mp hv)
          exact ⟨u1, u3.range, u4, u2, u3.dflt.trans e2⟩
        | false => exact ⟨rfl, Hp.SameRange.refl g, hg, e1, e2⟩)
    exact ⟨s5.1, s5.2.2.1, fun h => absurd h hcst, fun _ => ⟨s5.2.1, s5.2.2.2.1, s5.2.2.2.2⟩⟩

/-- **C65**: setting the parameters from a dictionary of legal values succeeds; a parameter the
dictionary does not mention is untouched, a mentioned constant is overwritten only if that is
asked for, and every other mentioned parameter gets the value and the default asked for, within
its unchanged range. -/
theorem C65_set_from_dict (s : SearchSpace) (h : ∀ p ∈ s, p.2.Ok) (o : SetOpts) (new : Dict Val)
    (hvd : o.values = true ∨ o.defaults = true) (hconf : o.confidence ≠ none)
    (hv : ∀ p ∈ s, ∀ v, new.get? p.1 = some v →
      (p.2.IsConst → o.overwriteConstants = true → o.values = true ∧ o.defaults = true) ∧
      (¬ p.2.IsConst → p.2.Accepts v)) :
    (s.setFromDict o new).raised = false ∧ (∀ p ∈ (s.setFromDict o new).st, p.2.Ok) ∧
      List.Forall₂ (fun p q => q.1 = p.1 ∧
        match new.get? p.1 with
        | none => q.2 = p.2
        | some v => Updated o v p.2 q.2) s (s.setFromDict o new).st := by
  unfold setFromDict
  rw [if_neg (by rintro ⟨h1, h2⟩; simp [h1, h2] at hvd)]
  induction s with
  | nil => exact ⟨rfl, by simp [setLoop], .nil⟩
  | cons p s ih =>
    obtain ⟨i1, i2, i3⟩ := ih (fun p hp => h p (by simp [hp])) (fun p hp => hv p (by simp [hp]))
    obtain ⟨k, a⟩ := p
    unfold setLoop
    cases hg : new.get? k with
    | none =>
      simp only
      refine ⟨i1, ?_, .cons ⟨rfl, by simp [hg]⟩ i3⟩
      intro q hq
      rcases List.mem_cons.mp hq with rfl | hq
      · exact h (k, a) (by simp)
      · exact i2 q hq
    | some v =>
      obtain ⟨v1, v2⟩ := hv (k, a) (by simp) v hg
      obtain ⟨u1, u2, u3⟩ := setHp_ok o (h (k, a) (by simp)) hconf v1 v2
      simp only [u1, Bool.false_eq_true, if_false]
      refine ⟨i1, ?_, .cons ⟨rfl, by simp only [hg]; exact u3⟩ i3⟩
      intro q hq
      rcases List.mem_cons.mp hq with rfl | hq
      · exact u2
      · exact i2 q hq

/-- Setting the activation function of the demonstration space, as value and as default. -/
example : (demoSpace.setFromDict ⟨true, true, true, true, false, some (1, 2)⟩
    [("act", .str "gelu")]).raised = false :=
  (C65_set_from_dict demoSpace demoSpace_inOrder.ok _ _ (.inl rfl) (by simp) (by
    simp only [demoSpace, List.mem_cons, List.not_mem_nil, or_false]
    rintro p (rfl | rfl | rfl) v hv
    · simp only [Dict.get?, List.find?_cons_of_pos, decide_true, Option.map_some,
        Option.some.injEq] at hv
      subst hv
      exact ⟨by simp [Hp.IsConst], fun _ => by simp [Hp.Accepts, demoAct]⟩
    · simp [Dict.get?] at hv
    · simp [Dict.get?] at hv)).1

/-- **C65 fails** to be atomic: an illegal value for a later parameter raises after the earlier
ones have been changed. -/
theorem C65_atomic_fails : ∃ (s : SearchSpace) (o : SetOpts) (new : Dict Val), s.InOrder ∧
    (s.setFromDict o new).raised = true ∧
    (Dict.get? s "a").bind Hp.value = none ∧
    (Dict.get? (s.setFromDict o new).st "a").bind Hp.value = some (.num 1) := by
  have hm : FloatParam.make 0 1 false false none 1 =
      some ⟨0, 1, false, false, none, false, 1, 1, none, none⟩ := by
    simp [FloatParam.make]
  have hok : (Hp.float ⟨0, 1, false, false, none, false, 1, 1, none, none⟩).Ok :=
    ⟨.make hm, by intro v h; simp [Hp.value] at h, by intro v h; simp [Hp.dflt] at h⟩
  refine ⟨[("a", .float ⟨0, 1, false, false, none, false, 1, 1, none, none⟩),
    ("b", .float ⟨0, 1, false, false, none, false, 1, 1, none, none⟩)],
    ⟨true, true, false, false, false, some (1, 1)⟩, [("a", .num 1), ("b", .num 2)], ?_, ?_, ?_, ?_⟩
  · refine ⟨[("a", .float ⟨0, 1, false, false, none, false, 1, 1, none, none⟩),
      ("b", .float ⟨0, 1, false, false, none, false, 1, 1, none, none⟩)],
      by simp [Dict.keys], ?_, ?_⟩
    · intro p hp
      simp only [List.mem_cons, List.not_mem_nil, or_false] at hp
      rcases hp with rfl | rfl <;> exact hok
    · have hs : ∀ x y : Hp, Dict.sorted [("a", x), ("b", y)] = [("a", x), ("b", y)] := by
        intro x y
        unfold Dict.sorted
        apply List.mergeSort_of_pairwise
        simp
      unfold SearchSpace.make
      simp [hs, Hp.isFidelity]
  · simp [setFromDict, setLoop, Dict.get?, setHp, Call.andThen, Hp.setDefault, Hp.setConfidence,
      Hp.setValue, Call.lift, FloatParam.setDefault, FloatParam.setConfidence, FloatParam.setValue]
  · simp [Dict.get?, Hp.value]
  · simp [setFromDict, setLoop, Dict.get?, setHp, Call.andThen, Hp.setDefault, Hp.setConfidence,
      Hp.setValue, Call.lift, FloatParam.setDefault, FloatParam.setConfidence, FloatParam.setValue,
      Hp.value]

/-- **C65, nothing to set**: asking for neither values nor defaults is rejected and changes
nothing. -/
theorem C65_nothing_rejected (s : SearchSpace) (o : SetOpts) (new : Dict Val)
    (h1 : o.values = false) (h2 : o.defaults = false) : s.setFromDict o new = ⟨s, true⟩ := by
  simp [setFromDict, h1, h2]

end SearchSpace

end Verif.Space
