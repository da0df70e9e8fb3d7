import Verif.Args.SpaceYamlLemmas

/-!
# Reading a YAML description yields the parameter it denotes: lemmas
-/

namespace Verif.Args

open Verif.Space

theorem number_num {parse : String → Option ℚ} {v : Py} {x : ℚ} (h : v.number = some x) :
    Num parse v x := by
  match v, h with
  | .bool true, h => cases h; exact .true
  | .bool false, h => cases h; exact .false
  | .int n, h => cases h; exact .int n
  | .float x, h => cases h; exact .float x

/-- The result of formatting a numerical description: the bounds and the default are numbers. -/
structure Formatted (parse : String → Option ℚ) (good : Py → Prop) (d d' : Dict Py) : Prop where
  keys : ∀ k, k ∈ d'.keys ↔ k ∈ d.keys
  lower : ∃ v w x, d.get? "lower" = some v ∧ d'.get? "lower" = some w ∧ good w ∧
    w.number = some x ∧ Num parse v x
  upper : ∃ v w x, d.get? "upper" = some v ∧ d'.get? "upper" = some w ∧ good w ∧
    w.number = some x ∧ Num parse v x
  dflt : (d.get? "default" = none ∧ d'.get? "default" = none) ∨
    ∃ v w x, d.get? "default" = some v ∧ d'.get? "default" = some w ∧ good w ∧
      w.number = some x ∧ Num parse v x
  other : ∀ k, k ≠ "lower" → k ≠ "upper" → k ≠ "default" → d'.get? k = d.get? k

theorem intLike_number {v : Py} (h : IntLike v) : ∃ n : ℤ, v.number = some (n : ℚ) := by
  cases h with
  | int n => exact ⟨n, rfl⟩
  | bool b => cases b; · exact ⟨0, by simp [Py.number]⟩
              · exact ⟨1, by simp [Py.number]⟩

theorem floatLike_number {v : Py} (h : FloatLike v) : ∃ x : ℚ, v.number = some x ∧ v = .float x := by
  cases h with
  | float x => exact ⟨x, rfl, rfl⟩

theorem isInt_cast {x : ℚ} (h : x.isInt = true) : ((x.num : ℤ) : ℚ) = x := by
  unfold Rat.isInt at h
  simp only [beq_iff_eq] at h
  exact Rat.coe_int_num_of_den_eq_one h

theorem isInt_coe (n : ℤ) : (n : ℚ).isInt = true := by
  unfold Rat.isInt
  simp

theorem intLike_num {parse : String → Option ℚ} {v : Py} {x : ℚ} (h : IntLike v)
    (hn : Num parse v x) : ∃ n : ℤ, x = n := by
  obtain ⟨n, hn'⟩ := intLike_number h
  exact ⟨n, hn.unique (number_num hn')⟩

theorem or_eq_true_iff {parse : String → Option ℚ} {l u : Py} {x y : ℚ} {f g : Bool}
    (h1 : convert parse l = .ok x f) (h2 : convert parse u = .ok y g) :
    (f || g) = true ↔ SciText l ∨ SciText u := by
  rw [Bool.or_eq_true, (convert_ok.mp h1).2, (convert_ok.mp h2).2]

theorem num_convert {parse : String → Option ℚ} {v : Py} {x : ℚ} (h : Num parse v x) :
    ∃ f, convert parse v = .ok x f := by
  by_cases hs : SciText v
  · exact ⟨true, convert_ok.mpr ⟨h, by simp [hs]⟩⟩
  · exact ⟨false, convert_ok.mpr ⟨h, by simp [hs]⟩⟩

/-! ### Formatting the default -/

/-- The effect of formatting the default. -/
structure DefaultFormatted (parse : String → Option ℚ) (good : Py → Prop) (d d' : Dict Py) : Prop where
  keys : ∀ k, k ∈ d'.keys ↔ k ∈ d.keys
  dflt : (d.get? "default" = none ∧ d'.get? "default" = none) ∨
    ∃ v w x, d.get? "default" = some v ∧ d'.get? "default" = some w ∧ good w ∧
      w.number = some x ∧ Num parse v x
  other : ∀ k, k ≠ "default" → d'.get? k = d.get? k

theorem defaultFormatted_set {parse : String → Option ℚ} {good : Py → Prop} {d : Dict Py} {v w : Py}
    {x : ℚ} (hv : d.get? "default" = some v) (hg : good w) (hw : w.number = some x)
    (hx : Num parse v x) : DefaultFormatted parse good d (d.set "default" w) where
  keys k := by
    rw [Dict.mem_keys_set]
    constructor
    · rintro (rfl | h)
      · exact Dict.mem_keys_iff.mpr ⟨v, hv⟩
      · exact h
    · exact Or.inr
  dflt := Or.inr ⟨v, w, x, hv, by rw [Dict.get?_set, if_pos rfl], hg, hw, hx⟩
  other k hk := by rw [Dict.get?_set, if_neg hk]

theorem defaultFormatted_self {parse : String → Option ℚ} {good : Py → Prop} {d : Dict Py} {v : Py}
    {x : ℚ} (hv : d.get? "default" = some v) (hg : good v) (hw : v.number = some x) :
    DefaultFormatted parse good d d :=
  ⟨fun _ => Iff.rfl, Or.inr ⟨v, v, x, hv, hv, hg, hw, number_num hw⟩, fun _ _ => rfl⟩

theorem formatIntDefault_some {parse : String → Option ℚ} {d d' : Dict Py}
    (h : formatIntDefault parse d = some d') : DefaultFormatted parse IntLike d d' := by
  unfold formatIntDefault at h
  cases hv : d.get? "default" with
  | none =>
    rw [hv] at h
    have h := Option.some.inj h
    subst h
    exact ⟨fun _ => Iff.rfl, Or.inl ⟨hv, hv⟩, fun _ _ => rfl⟩
  | some v =>
    rw [hv] at h
    simp only at h
    split_ifs at h with h1
    · have h := Option.some.inj h
      subst h
      obtain ⟨n, hn⟩ := intLike_number (isInt_iff.mp h1)
      exact defaultFormatted_self hv (isInt_iff.mp h1) hn
    · cases hc : convert parse v with
      | valueError => rw [hc] at h; cases h
      | typeError => rw [hc] at h; cases h
      | ok x f =>
        rw [hc] at h
        simp only at h
        split_ifs at h with h2
        have h := Option.some.inj h
        subst h
        refine defaultFormatted_set hv (.int x.num) rfl ?_
        rw [isInt_cast h2]
        exact (convert_ok.mp hc).1

theorem formatFloatDefault_some {parse : String → Option ℚ} {d d' : Dict Py}
    (h : formatFloatDefault parse d = some d') : DefaultFormatted parse FloatLike d d' := by
  unfold formatFloatDefault at h
  cases hv : d.get? "default" with
  | none =>
    rw [hv] at h
    have h := Option.some.inj h
    subst h
    exact ⟨fun _ => Iff.rfl, Or.inl ⟨hv, hv⟩, fun _ _ => rfl⟩
  | some v =>
    rw [hv] at h
    simp only at h
    split_ifs at h with h1
    · have h := Option.some.inj h
      subst h
      obtain ⟨x, hx, hvx⟩ := floatLike_number (isFloat_iff.mp h1)
      exact defaultFormatted_self hv (isFloat_iff.mp h1) hx
    · cases hc : convert parse v with
      | valueError => rw [hc] at h; cases h
      | typeError => rw [hc] at h; cases h
      | ok x f =>
        rw [hc] at h
        simp only at h
        have h := Option.some.inj h
        subst h
        exact defaultFormatted_set hv (.float x) rfl (convert_ok.mp hc).1

theorem formatIntDefault_exists {parse : String → Option ℚ} {d : Dict Py}
    (h : d.get? "default" = none ∨ ∃ v, ∃ n : ℤ, d.get? "default" = some v ∧ Num parse v n) :
    ∃ d', formatIntDefault parse d = some d' := by
  unfold formatIntDefault
  rcases h with h | ⟨v, n, h, hn⟩
  · rw [h]; exact ⟨_, rfl⟩
  · rw [h]
    simp only
    split_ifs with h1
    · exact ⟨_, rfl⟩
    · obtain ⟨f, hf⟩ := num_convert hn
      rw [hf]
      simp only
      rw [if_pos (isInt_coe n)]
      exact ⟨_, rfl⟩

theorem formatFloatDefault_exists {parse : String → Option ℚ} {d : Dict Py}
    (h : d.get? "default" = none ∨ ∃ v x, d.get? "default" = some v ∧ Num parse v x) :
    ∃ d', formatFloatDefault parse d = some d' := by
  unfold formatFloatDefault
  rcases h with h | ⟨v, n, h, hn⟩
  · rw [h]; exact ⟨_, rfl⟩
  · rw [h]
    simp only
    split_ifs with h1
    · exact ⟨_, rfl⟩
    · obtain ⟨f, hf⟩ := num_convert hn
      rw [hf]
      exact ⟨_, rfl⟩

/-! ### Formatting the bounds -/

/-- The effect of formatting the bounds. -/
structure BoundsFormatted (parse : String → Option ℚ) (good : Py → Prop) (d d' : Dict Py) : Prop where
  keys : ∀ k, k ∈ d'.keys ↔ k ∈ d.keys
  lower : ∃ v w x, d.get? "lower" = some v ∧ d'.get? "lower" = some w ∧ good w ∧
    w.number = some x ∧ Num parse v x
  upper : ∃ v w x, d.get? "upper" = some v ∧ d'.get? "upper" = some w ∧ good w ∧
    w.number = some x ∧ Num parse v x
  other : ∀ k, k ≠ "lower" → k ≠ "upper" → d'.get? k = d.get? k

theorem boundsFormatted_set {parse : String → Option ℚ} {good : Py → Prop} {d : Dict Py}
    {l u l' u' : Py} {x y : ℚ} (hl : d.get? "lower" = some l) (hu : d.get? "upper" = some u)
    (gl : good l') (gu : good u') (nl : l'.number = some x) (nu : u'.number = some y)
    (hx : Num parse l x) (hy : Num parse u y) :
    BoundsFormatted parse good d ((d.set "lower" l').set "upper" u') where
  keys k := by
    rw [Dict.mem_keys_set, Dict.mem_keys_set]
    constructor
    · rintro (rfl | rfl | h)
      · exact Dict.mem_keys_iff.mpr ⟨u, hu⟩
      · exact Dict.mem_keys_iff.mpr ⟨l, hl⟩
      · exact h
    · exact fun h => Or.inr (Or.inr h)
  lower := ⟨l, l', x, hl, by rw [Dict.get?_set, if_neg (by decide), Dict.get?_set, if_pos rfl], gl, nl, hx⟩
  upper := ⟨u, u', y, hu, by rw [Dict.get?_set, if_pos rfl], gu, nu, hy⟩
  other k h1 h2 := by rw [Dict.get?_set, if_neg h2, Dict.get?_set, if_neg h1]

theorem boundsFormatted_self {parse : String → Option ℚ} {good : Py → Prop} {d : Dict Py}
    {l u : Py} {x y : ℚ} (hl : d.get? "lower" = some l) (hu : d.get? "upper" = some u)
    (gl : good l) (gu : good u) (nl : l.number = some x) (nu : u.number = some y) :
    BoundsFormatted parse good d d :=
  ⟨fun _ => Iff.rfl, ⟨l, l, x, hl, hl, gl, nl, number_num nl⟩,
    ⟨u, u, y, hu, hu, gu, nu, number_num nu⟩, fun _ _ _ => rfl⟩

theorem formatIntBounds_some {parse : String → Option ℚ} {d d' : Dict Py}
    (h : formatIntBounds parse d = some d') :
    BoundsFormatted parse IntLike d d' ∧ IntBounds d := by
  unfold formatIntBounds at h
  cases hl : d.get? "lower" with
  | none => rw [hl] at h; cases h
  | some l =>
    cases hu : d.get? "upper" with
    | none => rw [hl, hu] at h; cases h
    | some u =>
      rw [hl, hu] at h
      simp only at h
      split_ifs at h with h1
      · have h := Option.some.inj h
        subst h
        rw [Bool.and_eq_true] at h1
        have i1 := isInt_iff.mp h1.1
        have i2 := isInt_iff.mp h1.2
        obtain ⟨n, hn⟩ := intLike_number i1
        obtain ⟨m, hm⟩ := intLike_number i2
        exact ⟨boundsFormatted_self hl hu i1 i2 hn hm, l, u, hl, hu, Or.inl ⟨i1, i2⟩⟩
      · cases hc : convert parse l with
        | valueError => rw [hc] at h; cases h
        | typeError => rw [hc] at h; cases h
        | ok x f =>
          cases hc' : convert parse u with
          | valueError => rw [hc, hc'] at h; cases h
          | typeError => rw [hc, hc'] at h; cases h
          | ok y g =>
            rw [hc, hc'] at h
            simp only at h
            split_ifs at h with h2
            have h := Option.some.inj h
            subst h
            rw [Bool.and_eq_true, Bool.and_eq_true, or_eq_true_iff hc hc'] at h2
            refine ⟨boundsFormatted_set hl hu (.int x.num) (.int y.num) rfl rfl ?_ ?_, l, u, hl, hu,
              Or.inr h2.1⟩
            · rw [isInt_cast h2.2.1]; exact (convert_ok.mp hc).1
            · rw [isInt_cast h2.2.2]; exact (convert_ok.mp hc').1

theorem formatFloatBounds_some {parse : String → Option ℚ} {d d' : Dict Py}
    (h : formatFloatBounds parse d = some d') : BoundsFormatted parse FloatLike d d' := by
  unfold formatFloatBounds at h
  cases hl : d.get? "lower" with
  | none => rw [hl] at h; cases h
  | some l =>
    cases hu : d.get? "upper" with
    | none => rw [hl, hu] at h; cases h
    | some u =>
      rw [hl, hu] at h
      simp only at h
      split_ifs at h with h1
      · have h := Option.some.inj h
        subst h
        rw [Bool.and_eq_true] at h1
        have i1 := isFloat_iff.mp h1.1
        have i2 := isFloat_iff.mp h1.2
        obtain ⟨n, hn, _⟩ := floatLike_number i1
        obtain ⟨m, hm, _⟩ := floatLike_number i2
        exact boundsFormatted_self hl hu i1 i2 hn hm
      · cases hc : convert parse l with
        | valueError => rw [hc] at h; cases h
        | typeError => rw [hc] at h; cases h
        | ok x f =>
          cases hc' : convert parse u with
          | valueError => rw [hc, hc'] at h; cases h
          | typeError => rw [hc, hc'] at h; cases h
          | ok y g =>
            rw [hc, hc'] at h
            simp only at h
            have h := Option.some.inj h
            subst h
            exact boundsFormatted_set hl hu (.float x) (.float y) rfl rfl (convert_ok.mp hc).1
              (convert_ok.mp hc').1

theorem formatIntBounds_exists {parse : String → Option ℚ} {d : Dict Py} (hb : IntBounds d)
    {n m : ℤ} (h1 : ∃ v, d.get? "lower" = some v ∧ Num parse v n)
    (h2 : ∃ v, d.get? "upper" = some v ∧ Num parse v m) : ∃ d', formatIntBounds parse d = some d' := by
  obtain ⟨l, u, hl, hu, hb⟩ := hb
  obtain ⟨l', hl', nl⟩ := h1
  obtain ⟨u', hu', nu⟩ := h2
  rw [hl] at hl'
  rw [hu] at hu'
  have hl' := Option.some.inj hl'
  have hu' := Option.some.inj hu'
  subst hl' hu'
  unfold formatIntBounds
  rw [hl, hu]
  simp only
  split_ifs with h3
  · exact ⟨_, rfl⟩
  · obtain ⟨f, hf⟩ := num_convert nl
    obtain ⟨g, hg⟩ := num_convert nu
    rw [hf, hg]
    simp only
    rw [if_pos]
    · exact ⟨_, rfl⟩
    · rw [isInt_coe, isInt_coe, Bool.and_true, Bool.and_true, or_eq_true_iff hf hg]
      rcases hb with ⟨i1, i2⟩ | hb
      · exact absurd (by rw [isInt_iff.mpr i1, isInt_iff.mpr i2]; rfl) h3
      · exact hb

theorem formatFloatBounds_exists {parse : String → Option ℚ} {d : Dict Py}
    {x y : ℚ} (h1 : ∃ v, d.get? "lower" = some v ∧ Num parse v x)
    (h2 : ∃ v, d.get? "upper" = some v ∧ Num parse v y) :
    ∃ d', formatFloatBounds parse d = some d' := by
  obtain ⟨l, hl, nl⟩ := h1
  obtain ⟨u, hu, nu⟩ := h2
  unfold formatFloatBounds
  rw [hl, hu]
  simp only
  split_ifs with h3
  · exact ⟨_, rfl⟩
  · obtain ⟨f, hf⟩ := num_convert nl
    obtain ⟨g, hg⟩ := num_convert nu
    rw [hf, hg]
    exact ⟨_, rfl⟩

/-! ### Formatting -/

theorem formatted_of {parse : String → Option ℚ} {good : Py → Prop} {d d1 d' : Dict Py}
    (h1 : BoundsFormatted parse good d d1) (h2 : DefaultFormatted parse good d1 d') :
    Formatted parse good d d' where
  keys k := by rw [h2.keys, h1.keys]
  lower := by rw [h2.other _ (by decide)]; exact h1.lower
  upper := by rw [h2.other _ (by decide)]; exact h1.upper
  dflt := by
    have := h2.dflt
    rw [h1.other "default" (by decide) (by decide)] at this
    exact this
  other k a b c := by rw [h2.other k c, h1.other k a b]

theorem formatInt_some {parse : String → Option ℚ} {d d' : Dict Py} (h : formatInt parse d = some d') :
    Formatted parse IntLike d d' ∧ IntBounds d := by
  unfold formatInt at h
  obtain ⟨d1, h1, h2⟩ := Option.bind_eq_some_iff.mp h
  exact ⟨formatted_of (formatIntBounds_some h1).1 (formatIntDefault_some h2),
    (formatIntBounds_some h1).2⟩

theorem formatFloat_some {parse : String → Option ℚ} {d d' : Dict Py}
    (h : formatFloat parse d = some d') : Formatted parse FloatLike d d' := by
  unfold formatFloat at h
  obtain ⟨d1, h1, h2⟩ := Option.bind_eq_some_iff.mp h
  exact formatted_of (formatFloatBounds_some h1) (formatFloatDefault_some h2)

theorem formatInt_exists {parse : String → Option ℚ} {d : Dict Py} (hb : IntBounds d)
    {n m : ℤ} (h1 : ∃ v, d.get? "lower" = some v ∧ Num parse v n)
    (h2 : ∃ v, d.get? "upper" = some v ∧ Num parse v m)
    (h3 : d.get? "default" = none ∨ ∃ v, ∃ n : ℤ, d.get? "default" = some v ∧ Num parse v n) :
    ∃ d', formatInt parse d = some d' := by
  obtain ⟨d1, hd1⟩ := formatIntBounds_exists hb h1 h2
  have e := (formatIntBounds_some hd1).1.other "default" (by decide) (by decide)
  rw [← e] at h3
  obtain ⟨d', hd'⟩ := formatIntDefault_exists h3
  exact ⟨d', by unfold formatInt; rw [hd1]; exact hd'⟩

theorem formatFloat_exists {parse : String → Option ℚ} {d : Dict Py}
    {n m : ℚ} (h1 : ∃ v, d.get? "lower" = some v ∧ Num parse v n)
    (h2 : ∃ v, d.get? "upper" = some v ∧ Num parse v m)
    (h3 : d.get? "default" = none ∨ ∃ v x, d.get? "default" = some v ∧ Num parse v x) :
    ∃ d', formatFloat parse d = some d' := by
  obtain ⟨d1, hd1⟩ := formatFloatBounds_exists h1 h2
  have e := (formatFloatBounds_some hd1).other "default" (by decide) (by decide)
  rw [← e] at h3
  obtain ⟨d', hd'⟩ := formatFloatDefault_exists h3
  exact ⟨d', by unfold formatFloat; rw [hd1]; exact hd'⟩

/-! ### The call of the constructor -/

theorem flagArg_iff {d : Dict Py} {k : String} {b : Bool} : flagArg d k = some b ↔ Flag d k b := by
  unfold flagArg Flag
  cases h : d.get? k with
  | none => simp [eq_comm]
  | some v => cases v <;> simp [eq_comm]

theorem confidenceArg_iff {d : Dict Py} {s : String} : confidenceArg d = some s ↔ Confidence d s := by
  unfold confidenceArg Confidence
  cases h : d.get? "default_confidence" with
  | none => simp [eq_comm]
  | some v => cases v <;> simp [eq_comm]

theorem numScore_iff {s : String} {x : ℝ} : numScore s = some x ↔
    (s, x) ∈ [("low", (1 / 2 : ℝ)), ("medium", 1 / 4), ("high", 1 / 8)] := by
  unfold numScore
  by_cases h1 : s = "low"
  · subst h1; simp [eq_comm]
  · by_cases h2 : s = "medium"
    · subst h2; simp [eq_comm]
    · by_cases h3 : s = "high"
      · subst h3; simp [eq_comm]
      · simp [h1, h2, h3]

theorem catScore_iff {s : String} {x : ℕ} : catScore s = some x ↔
    (s, x) ∈ [("low", 2), ("medium", 4), ("high", 6)] := by
  unfold catScore
  by_cases h1 : s = "low"
  · subst h1; simp [eq_comm]
  · by_cases h2 : s = "medium"
    · subst h2; simp [eq_comm]
    · by_cases h3 : s = "high"
      · subst h3; simp [eq_comm]
      · simp [h1, h2, h3]

theorem defaultArg_some {d : Dict Py} {w : Py} {x : ℚ} (h : d.get? "default" = some w)
    (hx : w.number = some x) : defaultArg d = some (some x) := by
  unfold defaultArg
  rw [h]
  cases w with
  | null => cases hx
  | _ => simp only [hx, Option.map_some]

/-- The keyword arguments of the constructor, after formatting. -/
theorem callNum_iff {β : Type} {make : ℝ → ℝ → Bool → Bool → Option ℝ → ℝ → Option β}
    {parse : String → Option ℚ} {good : Py → Prop} {d d' : Dict Py} {p : β} (hf : Formatted parse good d d')
    (ht : "type" ∉ d.keys) : callNum make d' = some p ↔
      ∃ l u log fid dflt score, NumDecl parse d l u log fid dflt score ∧
        make l u log fid (dflt.map fun (x : ℚ) => (x : ℝ)) score = some p := by
  obtain ⟨vl, wl, xl, l1, l2, l3, l4, l5⟩ := hf.lower
  obtain ⟨vu, wu, xu, u1, u2, u3, u4, u5⟩ := hf.upper
  have hkeys : (d'.keys.all fun k => decide (k ∈ numKeys)) = true ↔
      ∀ k ∈ d.keys, k ∈ ["type", "lower", "upper", "log", "is_fidelity", "default",
        "default_confidence"] := by
    rw [List.all_eq_true]
    constructor
    · intro h k hk
      have := h k ((hf.keys k).mpr hk)
      rw [decide_eq_true_eq] at this
      exact List.mem_cons_of_mem _ this
    · intro h k hk
      rw [decide_eq_true_eq]
      have hk := (hf.keys k).mp hk
      rcases List.mem_cons.mp (h k hk) with rfl | h'
      · exact absurd hk ht
      · exact h'
  have hlog : ∀ b, flagArg d' "log" = some b ↔ Flag d "log" b := by
    intro b
    rw [flagArg_iff]
    unfold Flag
    rw [hf.other "log" (by decide) (by decide) (by decide)]
  have hfid : ∀ b, flagArg d' "is_fidelity" = some b ↔ Flag d "is_fidelity" b := by
    intro b
    rw [flagArg_iff]
    unfold Flag
    rw [hf.other "is_fidelity" (by decide) (by decide) (by decide)]
  have hconf : ∀ b, confidenceArg d' = some b ↔ Confidence d b := by
    intro b
    rw [confidenceArg_iff]
    unfold Confidence
    rw [hf.other "default_confidence" (by decide) (by decide) (by decide)]
  have hdflt : ∀ o, defaultArg d' = some o ↔ ((d.get? "default" = none ∧ o = none) ∨
      ∃ v x, d.get? "default" = some v ∧ Num parse v x ∧ o = some x) := by
    intro o
    rcases hf.dflt with ⟨a, b⟩ | ⟨v, w, x, a, b, c, e, f⟩
    · rw [a]; unfold defaultArg; rw [b]; simp [eq_comm]
    · rw [a, defaultArg_some b e]
      simp only [Option.some.injEq, reduceCtorEq, false_and, false_or]
      constructor
      · rintro rfl; exact ⟨v, x, rfl, f, rfl⟩
      · rintro ⟨v', x', rfl, h1, rfl⟩; rw [f.unique h1]
  unfold callNum
  constructor
  · intro h
    split_ifs at h with hk
    rw [l2, u2] at h
    simp only [Option.bind_eq_bind, Option.bind_some, l4, u4] at h
    simp only [Option.bind_eq_some_iff] at h
    obtain ⟨log, h1, fid, h2, dflt, h3, conf, h4, score, h5, h6⟩ := h
    refine ⟨xl, xu, log, fid, dflt, score, ⟨hkeys.mp hk, ⟨vl, l1, l5⟩, ⟨vu, u1, u5⟩, (hlog _).mp h1,
      (hfid _).mp h2, (hdflt _).mp h3, conf, (hconf _).mp h4, numScore_iff.mp h5⟩, h6⟩
  · rintro ⟨l, u, log, fid, dflt, score, hd, hm⟩
    rw [if_pos (hkeys.mpr hd.keys), l2, u2]
    obtain ⟨v1, e1, e2⟩ := hd.lower
    obtain ⟨v2, e3, e4⟩ := hd.upper
    rw [l1] at e1
    rw [u1] at e3
    have e1 := Option.some.inj e1
    have e3 := Option.some.inj e3
    subst e1 e3
    obtain ⟨name, hn, hs⟩ := hd.conf
    simp only [Option.bind_eq_bind, Option.bind_some, l4, u4, (hlog _).mpr hd.log,
      (hfid _).mpr hd.fid, (hdflt _).mpr hd.dflt, (hconf _).mpr hn, numScore_iff.mpr hs]
    rw [l5.unique e2, u5.unique e4]
    exact hm

end Verif.Args
