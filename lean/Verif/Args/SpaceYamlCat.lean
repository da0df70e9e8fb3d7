import Verif.Args.SpaceYamlRead

/-!
# Reading a description: categorical parameters, and the kinds
-/

namespace Verif.Args

open Verif.Space

theorem mapM_cons_some {α β : Type} {f : α → Option β} {a : α} {l : List α} {r : List β} :
    (a :: l).mapM f = some r ↔ ∃ b bs, f a = some b ∧ l.mapM f = some bs ∧ r = b :: bs := by
  rw [List.mapM_cons]
  simp only [Option.bind_eq_bind, Option.bind_eq_some_iff, Option.pure_def, Option.some.injEq]
  constructor
  · rintro ⟨b, h1, bs, h2, rfl⟩; exact ⟨b, bs, h1, h2, rfl⟩
  · rintro ⟨b, bs, h1, h2, rfl⟩; exact ⟨b, h1, bs, h2, rfl⟩

theorem scalars_iff {parse : String → Option ℚ} {cs : List Py} {vs : List Val} :
    (∃ l, cs.mapM (convertSci parse) = some l ∧ l.mapM Py.val = some vs) ↔
      List.Forall₂ (Scalar parse) cs vs := by
  induction cs generalizing vs with
  | nil =>
    simp only [List.mapM_nil, Option.pure_def, Option.some.injEq]
    constructor
    · rintro ⟨l, rfl, h⟩
      simp only [List.mapM_nil, Option.pure_def, Option.some.injEq] at h
      subst h
      exact .nil
    · rintro ⟨⟩
      exact ⟨[], rfl, by simp⟩
  | cons c cs ih =>
    constructor
    · rintro ⟨l, h1, h2⟩
      obtain ⟨b, bs, e1, e2, rfl⟩ := mapM_cons_some.mp h1
      obtain ⟨x, xs, e3, e4, rfl⟩ := mapM_cons_some.mp h2
      refine .cons (scalar_iff.mp ?_) (ih.mp ⟨bs, e2, e4⟩)
      rw [e1]; exact e3
    · rintro (_ | ⟨h1, h2⟩)
      obtain ⟨bs, e2, e4⟩ := ih.mpr h2
      obtain ⟨b, e1, e3⟩ := Option.bind_eq_some_iff.mp (scalar_iff.mpr h1)
      exact ⟨b :: bs, mapM_cons_some.mpr ⟨_, _, e1, e2, rfl⟩, mapM_cons_some.mpr ⟨_, _, e3, e4, rfl⟩⟩

theorem mapM_convertSci_idem {parse : String → Option ℚ} {cs l : List Py}
    (h : cs.mapM (convertSci parse) = some l) : l.mapM (convertSci parse) = some l := by
  induction cs generalizing l with
  | nil =>
    simp only [List.mapM_nil, Option.pure_def, Option.some.injEq] at h
    subst h
    rfl
  | cons c cs ih =>
    obtain ⟨b, bs, e1, e2, rfl⟩ := mapM_cons_some.mp h
    exact mapM_cons_some.mpr ⟨_, _, convertSci_idem e1, ih e2, rfl⟩

/-- The effect of `formatCat`. -/
structure CatFormatted (parse : String → Option ℚ) (d d' : Dict Py) (cs l : List Py) : Prop where
  keys : ∀ k, k ∈ d'.keys ↔ k ∈ d.keys
  choices : d.get? "choices" = some (.list cs)
  conv : cs.mapM (convertSci parse) = some l
  choices' : d'.get? "choices" = some (.list l)
  dflt : (d.get? "default" = none ∧ d'.get? "default" = none) ∨
    ∃ v w, d.get? "default" = some v ∧ d'.get? "default" = some w ∧ convertSci parse v = some w
  other : ∀ k, k ≠ "choices" → k ≠ "default" → d'.get? k = d.get? k

theorem formatCat_some {parse : String → Option ℚ} {d d' : Dict Py} (h : formatCat parse d = some d') :
    ∃ cs l, CatFormatted parse d d' cs l := by
  unfold formatCat at h
  split at h
  · rename_i cs hc
    obtain ⟨l, h1, h2⟩ := Option.bind_eq_some_iff.mp h
    have hk : ∀ k, k ∈ (d.set "choices" (.list l)).keys ↔ k ∈ d.keys := by
      intro k
      rw [Dict.mem_keys_set]
      constructor
      · rintro (rfl | h)
        · exact Dict.mem_keys_iff.mpr ⟨_, hc⟩
        · exact h
      · exact Or.inr
    have hg : ∀ k, k ≠ "choices" → (d.set "choices" (.list l)).get? k = d.get? k := by
      intro k hk
      rw [Dict.get?_set, if_neg hk]
    have hg' : (d.set "choices" (.list l)).get? "choices" = some (.list l) := by
      rw [Dict.get?_set, if_pos rfl]
    unfold formatCatDefault at h2
    cases hd : (d.set "choices" (.list l)).get? "default" with
    | none =>
      rw [hd] at h2
      have h2 := Option.some.inj h2
      subst h2
      refine ⟨cs, l, hk, hc, h1, hg', Or.inl ⟨?_, hd⟩, fun k a _ => hg k a⟩
      rw [← hg "default" (by decide)]; exact hd
    | some v =>
      rw [hd] at h2
      simp only at h2
      split_ifs at h2 with hs
      obtain ⟨w, hw, h2⟩ := Option.map_eq_some_iff.mp h2
      subst h2
      refine ⟨cs, l, fun k => ?_, hc, h1, ?_, Or.inr ⟨v, w, ?_, ?_, hw⟩, fun k a b => ?_⟩
      · rw [Dict.mem_keys_set, hk]
        constructor
        · rintro (rfl | h)
          · rw [← hk]; exact Dict.mem_keys_iff.mpr ⟨v, hd⟩
          · exact h
        · exact Or.inr
      · rw [Dict.get?_set, if_neg (by decide)]; exact hg'
      · rw [← hg "default" (by decide)]; exact hd
      · rw [Dict.get?_set, if_pos rfl]
      · rw [Dict.get?_set, if_neg b]; exact hg k a
  · cases h

theorem formatCat_exists {parse : String → Option ℚ} {d : Dict Py} {cs l : List Py}
    (h1 : d.get? "choices" = some (.list cs)) (h2 : cs.mapM (convertSci parse) = some l)
    (h3 : d.get? "default" = none ∨ ∃ v w, d.get? "default" = some v ∧ convertSci parse v = some w) :
    ∃ d', formatCat parse d = some d' := by
  unfold formatCat
  rw [h1]
  simp only [h2, Option.bind_some]
  unfold formatCatDefault
  rw [Dict.get?_set, if_neg (by decide)]
  rcases h3 with h3 | ⟨v, w, h3, h4⟩
  · rw [h3]; exact ⟨_, rfl⟩
  · rw [h3]
    simp only [(isScalar_of_convertSci h4).1, ↓reduceIte, h4, Option.map_some]
    exact ⟨_, rfl⟩

theorem defaultVal_some {parse : String → Option ℚ} {d : Dict Py} {v w : Py}
    (h : d.get? "default" = some w) (hw : convertSci parse v = some w) :
    defaultVal d = w.val.map some := by
  unfold defaultVal
  rw [h]
  have := (isScalar_of_convertSci hw).2
  cases w with
  | null => cases this
  | _ => rfl

/-- Formatting and constructing a categorical parameter. -/
theorem readCat_iff {parse : String → Option ℚ} {d : Dict Py} {p : CatParam Val}
    (ht : "type" ∉ d.keys) : (formatCat parse d).bind callCat = some p ↔
      ∃ cs vs dflt name score,
        (∀ k ∈ d.keys, k ∈ ["type", "choices", "default", "default_confidence"]) ∧
        d.get? "choices" = some (.list cs) ∧ List.Forall₂ (Scalar parse) cs vs ∧
        ((d.get? "default" = none ∧ dflt = none) ∨
          ∃ v x, d.get? "default" = some v ∧ Scalar parse v x ∧ dflt = some x) ∧
        Confidence d name ∧ (name, score) ∈ [("low", 2), ("medium", 4), ("high", 6)] ∧
        CatParam.make vs dflt score = some p := by
  have main : ∀ d' cs l, CatFormatted parse d d' cs l → (callCat d' = some p ↔
      ∃ vs dflt name score,
        (∀ k ∈ d.keys, k ∈ ["type", "choices", "default", "default_confidence"]) ∧
        List.Forall₂ (Scalar parse) cs vs ∧
        ((d.get? "default" = none ∧ dflt = none) ∨
          ∃ v x, d.get? "default" = some v ∧ Scalar parse v x ∧ dflt = some x) ∧
        Confidence d name ∧ (name, score) ∈ [("low", 2), ("medium", 4), ("high", 6)] ∧
        CatParam.make vs dflt score = some p) := by
    intro d' cs l hf
    have hkeys : (d'.keys.all fun k => decide (k ∈ catKeys)) = true ↔
        ∀ k ∈ d.keys, k ∈ ["type", "choices", "default", "default_confidence"] := by
      rw [List.all_eq_true]
      constructor
      · intro h k hk
        have := h k ((hf.keys k).mpr hk)
        rw [decide_eq_true_eq] at this
        exact List.mem_cons_of_mem _ this
      · intro h k hk
        rw [decide_eq_true_eq]
        have hk := (hf.keys k).mp hk
        rcases List.mem_cons.mp (h k hk) with rfl | h'
        · exact absurd hk ht
        · exact h'
    have hvs : ∀ vs, l.mapM Py.val = some vs ↔ List.Forall₂ (Scalar parse) cs vs := by
      intro vs
      rw [← scalars_iff]
      constructor
      · intro h; exact ⟨l, hf.conv, h⟩
      · rintro ⟨l', h1, h2⟩
        rw [hf.conv] at h1
        rw [Option.some.inj h1]; exact h2
    have hconf : ∀ b, confidenceArg d' = some b ↔ Confidence d b := by
      intro b
      rw [confidenceArg_iff]
      unfold Confidence
      rw [hf.other "default_confidence" (by decide) (by decide)]
    have hdflt : ∀ o, defaultVal d' = some o ↔ ((d.get? "default" = none ∧ o = none) ∨
        ∃ v x, d.get? "default" = some v ∧ Scalar parse v x ∧ o = some x) := by
      intro o
      rcases hf.dflt with ⟨a, b⟩ | ⟨v, w, a, b, c⟩
      · rw [a]; unfold defaultVal; rw [b]; simp [eq_comm]
      · rw [a, defaultVal_some b c]
        simp only [Option.map_eq_some_iff, reduceCtorEq, false_and, false_or, Option.some.injEq]
        constructor
        · rintro ⟨x, h1, rfl⟩
          exact ⟨v, x, rfl, scalar_iff.mp (by rw [c]; exact h1), rfl⟩
        · rintro ⟨v', x, rfl, h1, rfl⟩
          have := scalar_iff.mpr h1
          rw [c] at this
          exact ⟨x, this, rfl⟩
    unfold callCat
    constructor
    · intro h
      split_ifs at h with hk
      rw [hf.choices'] at h
      simp only [Option.bind_eq_bind, Option.bind_eq_some_iff] at h
      obtain ⟨vs, h1, dflt, h2, conf, h3, score, h4, h5⟩ := h
      exact ⟨vs, dflt, conf, score, hkeys.mp hk, (hvs _).mp h1, (hdflt _).mp h2, (hconf _).mp h3,
        catScore_iff.mp h4, h5⟩
    · rintro ⟨vs, dflt, conf, score, h1, h2, h3, h4, h5, h6⟩
      rw [if_pos (hkeys.mpr h1), hf.choices']
      simp only [Option.bind_eq_bind, (hvs _).mpr h2, (hdflt _).mpr h3, (hconf _).mpr h4,
        catScore_iff.mpr h5, Option.bind_some]
      exact h6
  constructor
  · intro h
    obtain ⟨d', h1, h2⟩ := Option.bind_eq_some_iff.mp h
    obtain ⟨cs, l, hf⟩ := formatCat_some h1
    obtain ⟨vs, dflt, conf, score, a, b, c⟩ := (main d' cs l hf).mp h2
    exact ⟨cs, vs, dflt, conf, score, a, hf.choices, b, c⟩
  · rintro ⟨cs, vs, dflt, conf, score, a, b, c, e, f⟩
    obtain ⟨l, hl, _⟩ := scalars_iff.mpr c
    obtain ⟨d', hd'⟩ := formatCat_exists (parse := parse) b hl (by
      rcases e with ⟨e, _⟩ | ⟨v, x, e, e', _⟩
      · exact Or.inl e
      · obtain ⟨w, hw, _⟩ := Option.bind_eq_some_iff.mp (scalar_iff.mpr e')
        exact Or.inr ⟨v, w, e, hw⟩)
    obtain ⟨cs', l', hf⟩ := formatCat_some hd'
    have : cs' = cs := by
      have := hf.choices
      rw [b] at this
      injection this with this
      injection this with this
      exact this.symm
    subst this
    rw [hd']
    exact (main d' cs' l' hf).mpr ⟨vs, dflt, conf, score, a, c, e, f⟩

/-! ### The kinds -/

/-- Formatting and constructing an integer parameter. -/
theorem readInt_iff {parse : String → Option ℚ} {d : Dict Py} {p : IntParam}
    (ht : "type" ∉ d.keys) : (formatInt parse d).bind (callNum IntParam.make) = some p ↔
      ∃ (l u : ℤ) (log fid : Bool) (dflt : Option ℤ) (score : ℝ), IntBounds d ∧
        NumDecl parse d l u log fid (dflt.map fun (n : ℤ) => (n : ℚ)) score ∧
        IntParam.make l u log fid (dflt.map fun (n : ℤ) => (n : ℝ)) score = some p := by
  constructor
  · intro h
    obtain ⟨d', h1, h2⟩ := Option.bind_eq_some_iff.mp h
    obtain ⟨hf, hb⟩ := formatInt_some h1
    obtain ⟨l, u, log, fid, dflt, score, hd, hm⟩ := (callNum_iff hf ht).mp h2
    have hl : ∃ n : ℤ, l = n := by
      obtain ⟨v, w, x, a, b, c, e, f⟩ := hf.lower
      obtain ⟨v', a', f'⟩ := hd.lower
      rw [a] at a'
      rw [← Option.some.inj a'] at f'
      obtain ⟨n, hn⟩ := intLike_number c
      rw [e] at hn
      exact ⟨n, by rw [f'.unique f]; exact Option.some.inj hn⟩
    have hu : ∃ n : ℤ, u = n := by
      obtain ⟨v, w, x, a, b, c, e, f⟩ := hf.upper
      obtain ⟨v', a', f'⟩ := hd.upper
      rw [a] at a'
      rw [← Option.some.inj a'] at f'
      obtain ⟨n, hn⟩ := intLike_number c
      rw [e] at hn
      exact ⟨n, by rw [f'.unique f]; exact Option.some.inj hn⟩
    have hdf : ∃ o : Option ℤ, dflt = o.map fun (n : ℤ) => (n : ℚ) := by
      rcases hd.dflt with ⟨_, rfl⟩ | ⟨v', x', a', f', rfl⟩
      · exact ⟨none, rfl⟩
      · rcases hf.dflt with ⟨a, _⟩ | ⟨v, w, x, a, b, c, e, f⟩
        · rw [a] at a'; cases a'
        · rw [a] at a'
          rw [← Option.some.inj a'] at f'
          obtain ⟨n, hn⟩ := intLike_number c
          rw [e] at hn
          refine ⟨some n, ?_⟩
          rw [f'.unique f, Option.some.inj hn]; rfl
    obtain ⟨n, rfl⟩ := hl
    obtain ⟨m, rfl⟩ := hu
    obtain ⟨o, rfl⟩ := hdf
    refine ⟨n, m, log, fid, o, score, hb, hd, ?_⟩
    rw [← hm]
    cases o <;> simp
  · rintro ⟨l, u, log, fid, dflt, score, hb, hd, hm⟩
    obtain ⟨d', hd'⟩ := formatInt_exists hb hd.lower hd.upper (by
      rcases hd.dflt with ⟨a, _⟩ | ⟨v, x, a, b, c⟩
      · exact Or.inl a
      · cases dflt with
        | none => cases c
        | some n =>
          rw [Option.map_some, Option.some.injEq] at c
          exact Or.inr ⟨v, n, a, by rw [c]; exact b⟩)
    rw [hd']
    refine (callNum_iff (formatInt_some hd').1 ht).mpr ⟨l, u, log, fid, _, score, hd, ?_⟩
    rw [← hm]
    cases dflt <;> simp

/-- Formatting and constructing a float parameter. -/
theorem readFloat_iff {parse : String → Option ℚ} {d : Dict Py} {p : FloatParam}
    (ht : "type" ∉ d.keys) : (formatFloat parse d).bind (callNum FloatParam.make) = some p ↔
      ∃ l u log fid dflt score, NumDecl parse d l u log fid dflt score ∧
        FloatParam.make l u log fid (dflt.map fun (x : ℚ) => (x : ℝ)) score = some p := by
  constructor
  · intro h
    obtain ⟨d', h1, h2⟩ := Option.bind_eq_some_iff.mp h
    exact (callNum_iff (formatFloat_some h1) ht).mp h2
  · rintro ⟨l, u, log, fid, dflt, score, hd, hm⟩
    obtain ⟨d', hd'⟩ := formatFloat_exists hd.lower hd.upper (by
      rcases hd.dflt with ⟨a, _⟩ | ⟨v, x, a, b, c⟩
      · exact Or.inl a
      · exact Or.inr ⟨v, x, a, b⟩)
    rw [hd']
    exact (callNum_iff (formatFloat_some hd') ht).mpr ⟨l, u, log, fid, _, score, hd, hm⟩

/-- The key `type` plays no role for the values. -/
theorem numDecl_erase {parse : String → Option ℚ} {d : Dict Py} {l u : ℚ} {log fid : Bool}
    {dflt : Option ℚ} {score : ℝ} :
    NumDecl parse (d.erase "type") l u log fid dflt score ↔
      NumDecl parse d l u log fid dflt score := by
  have hk : ∀ k, k ≠ "type" → (d.erase "type").get? k = d.get? k := by
    intro k h; rw [Dict.get?_erase, if_neg h]
  constructor
  · rintro ⟨h1, h2, h3, h4, h5, h6, h7⟩
    refine ⟨fun k h => ?_, ?_, ?_, ?_, ?_, ?_, ?_⟩
    · by_cases e : k = "type"
      · rw [e]; exact List.mem_cons_self ..
      · exact h1 k (Dict.mem_keys_erase.mpr ⟨e, h⟩)
    · rw [hk _ (by decide)] at h2; exact h2
    · rw [hk _ (by decide)] at h3; exact h3
    · unfold Flag at *; rw [hk _ (by decide)] at h4; exact h4
    · unfold Flag at *; rw [hk _ (by decide)] at h5; exact h5
    · rw [hk _ (by decide)] at h6; exact h6
    · unfold Confidence at *; rw [hk _ (by decide)] at h7; exact h7
  · rintro ⟨h1, h2, h3, h4, h5, h6, h7⟩
    refine ⟨fun k h => h1 k (Dict.mem_keys_erase.mp h).2, ?_, ?_, ?_, ?_, ?_, ?_⟩
    · rw [hk _ (by decide)]; exact h2
    · rw [hk _ (by decide)]; exact h3
    · unfold Flag at *; rw [hk _ (by decide)]; exact h4
    · unfold Flag at *; rw [hk _ (by decide)]; exact h5
    · rw [hk _ (by decide)]; exact h6
    · unfold Confidence at *; rw [hk _ (by decide)]; exact h7

theorem intBounds_erase {d : Dict Py} : IntBounds (d.erase "type") ↔ IntBounds d := by
  unfold IntBounds
  rw [Dict.get?_erase, if_neg (by decide), Dict.get?_erase, if_neg (by decide)]

/-- Replacing the bounds by the numbers they stand for. -/
theorem numDecl_bounds {parse : String → Option ℚ} {d d' : Dict Py} {good : Py → Prop} {l u : ℚ} {log fid : Bool}
    {dflt : Option ℚ} {score : ℝ} (h : BoundsFormatted parse good d d') :
    NumDecl parse d' l u log fid dflt score ↔ NumDecl parse d l u log fid dflt score := by
  obtain ⟨vl, wl, xl, l1, l2, l3, l4, l5⟩ := h.lower
  obtain ⟨vu, wu, xu, u1, u2, u3, u4, u5⟩ := h.upper
  have hk : ∀ k, k ≠ "lower" → k ≠ "upper" → d'.get? k = d.get? k := h.other
  constructor
  · rintro ⟨h1, ⟨v, h2, h2'⟩, ⟨w, h3, h3'⟩, h4, h5, h6, h7⟩
    rw [l2] at h2
    rw [u2] at h3
    have h2 := Option.some.inj h2
    have h3 := Option.some.inj h3
    subst h2 h3
    refine ⟨fun k hk' => h1 k ((h.keys k).mpr hk'), ⟨vl, l1, ?_⟩, ⟨vu, u1, ?_⟩, ?_, ?_, ?_, ?_⟩
    · rw [h2'.unique (number_num l4)]; exact l5
    · rw [h3'.unique (number_num u4)]; exact u5
    · unfold Flag at *; rw [hk _ (by decide) (by decide)] at h4; exact h4
    · unfold Flag at *; rw [hk _ (by decide) (by decide)] at h5; exact h5
    · rw [hk _ (by decide) (by decide)] at h6; exact h6
    · unfold Confidence at *; rw [hk _ (by decide) (by decide)] at h7; exact h7
  · rintro ⟨h1, ⟨v, h2, h2'⟩, ⟨w, h3, h3'⟩, h4, h5, h6, h7⟩
    rw [l1] at h2
    rw [u1] at h3
    have h2 := Option.some.inj h2
    have h3 := Option.some.inj h3
    subst h2 h3
    refine ⟨fun k hk' => h1 k ((h.keys k).mp hk'), ⟨wl, l2, ?_⟩, ⟨wu, u2, ?_⟩, ?_, ?_, ?_, ?_⟩
    · rw [h2'.unique l5]; exact number_num l4
    · rw [h3'.unique u5]; exact number_num u4
    · unfold Flag at *; rw [hk _ (by decide) (by decide)]; exact h4
    · unfold Flag at *; rw [hk _ (by decide) (by decide)]; exact h5
    · rw [hk _ (by decide) (by decide)]; exact h6
    · unfold Confidence at *; rw [hk _ (by decide) (by decide)]; exact h7

end Verif.Args
