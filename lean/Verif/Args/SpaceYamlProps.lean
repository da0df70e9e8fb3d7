import Verif.Args.SpaceYamlCat

/-!
# Properties of search spaces described in YAML (C39, C68, C69)
-/

namespace Verif.Args

open Verif.Space

/-! ## Lemmas -/

theorem exists_read {β : Type} {F : Option (Dict Py)} {call : Dict Py → Option β} {inj : β → Hp}
    {hp : Hp} :
    (∃ v', (do let d' ← F; let p ← call d'; return (inj p, Py.dict d') : Option (Hp × Py)) =
      some (hp, v')) ↔ ∃ p, F.bind call = some p ∧ hp = inj p := by
  simp only [Option.bind_eq_bind, Option.bind_eq_some_iff, Option.pure_def, Option.some.injEq,
    Prod.mk.injEq]
  constructor
  · rintro ⟨v', d', h1, p, h2, rfl, rfl⟩; exact ⟨p, ⟨d', h1, h2⟩, rfl⟩
  · rintro ⟨p, ⟨d', h1, h2⟩, rfl⟩; exact ⟨_, d', h1, p, h2, rfl, rfl⟩

theorem typed_int {parse : String → Option ℚ} {t : String} {d : Dict Py} {hp : Hp}
    (h : t = "int" ∨ t = "integer") (ht : "type" ∉ d.keys) :
    (∃ v', readTyped parse t (.dict d) = some (hp, v')) ↔
      ∃ (l u : ℤ) (log fid : Bool) (dflt : Option ℤ) (score : ℝ) (p : IntParam), IntBounds d ∧
        NumDecl parse d l u log fid (dflt.map fun (n : ℤ) => (n : ℚ)) score ∧
        IntParam.make l u log fid (dflt.map fun (n : ℤ) => (n : ℝ)) score = some p ∧ hp = .int p := by
  unfold readTyped
  simp only [if_pos h]
  rw [exists_read]
  constructor
  · rintro ⟨p, h1, h2⟩
    obtain ⟨l, u, log, fid, dflt, score, h3⟩ := (readInt_iff ht).mp h1
    exact ⟨l, u, log, fid, dflt, score, p, h3.1, h3.2.1, h3.2.2, h2⟩
  · rintro ⟨l, u, log, fid, dflt, score, p, h1, h2, h3, h4⟩
    exact ⟨p, (readInt_iff ht).mpr ⟨l, u, log, fid, dflt, score, h1, h2, h3⟩, h4⟩

theorem typed_float {parse : String → Option ℚ} {d : Dict Py} {hp : Hp} (ht : "type" ∉ d.keys) :
    (∃ v', readTyped parse "float" (.dict d) = some (hp, v')) ↔
      ∃ l u log fid dflt score p, NumDecl parse d l u log fid dflt score ∧
        FloatParam.make l u log fid (dflt.map fun (x : ℚ) => (x : ℝ)) score = some p ∧
        hp = .float p := by
  unfold readTyped
  simp only [if_neg (show ¬ ("float" = "int" ∨ "float" = "integer") by decide), ↓reduceIte]
  rw [exists_read]
  constructor
  · rintro ⟨p, h1, h2⟩
    obtain ⟨l, u, log, fid, dflt, score, h3⟩ := (readFloat_iff ht).mp h1
    exact ⟨l, u, log, fid, dflt, score, p, h3.1, h3.2, h2⟩
  · rintro ⟨l, u, log, fid, dflt, score, p, h1, h2, h4⟩
    exact ⟨p, (readFloat_iff ht).mpr ⟨l, u, log, fid, dflt, score, h1, h2⟩, h4⟩

theorem typed_cat {parse : String → Option ℚ} {t : String} {d : Dict Py} {hp : Hp}
    (h : t = "cat" ∨ t = "categorical") (ht : "type" ∉ d.keys) :
    (∃ v', readTyped parse t (.dict d) = some (hp, v')) ↔
      ∃ cs vs dflt name score p,
        (∀ k ∈ d.keys, k ∈ ["type", "choices", "default", "default_confidence"]) ∧
        d.get? "choices" = some (.list cs) ∧ List.Forall₂ (Scalar parse) cs vs ∧
        ((d.get? "default" = none ∧ dflt = none) ∨
          ∃ v x, d.get? "default" = some v ∧ Scalar parse v x ∧ dflt = some x) ∧
        Confidence d name ∧ (name, score) ∈ [("low", 2), ("medium", 4), ("high", 6)] ∧
        CatParam.make vs dflt score = some p ∧ hp = .cat p := by
  have n1 : ¬ (t = "int" ∨ t = "integer") := by rcases h with rfl | rfl <;> decide
  have n2 : ¬ t = "float" := by rcases h with rfl | rfl <;> decide
  unfold readTyped
  simp only [if_neg n1, if_neg n2, if_pos h]
  rw [exists_read]
  constructor
  · rintro ⟨p, h1, h2⟩
    obtain ⟨cs, vs, dflt, name, score, a, b, c, e, f, g, i⟩ := (readCat_iff ht).mp h1
    exact ⟨cs, vs, dflt, name, score, p, a, b, c, e, f, g, i, h2⟩
  · rintro ⟨cs, vs, dflt, name, score, p, a, b, c, e, f, g, i, h2⟩
    exact ⟨p, (readCat_iff ht).mpr ⟨cs, vs, dflt, name, score, a, b, c, e, f, g, i⟩, h2⟩

theorem typed_other {parse : String → Option ℚ} {t : String} {d : Dict Py} {r : Hp × Py}
    (h : readTyped parse t (.dict d) = some r) :
    (t = "int" ∨ t = "integer") ∨ t = "float" ∨ (t = "cat" ∨ t = "categorical") := by
  unfold readTyped at h
  split_ifs at h with h1 h2 h3 h4
  · exact Or.inl h1
  · exact Or.inr (Or.inl h2)
  · exact Or.inr (Or.inr h3)
  · cases h

theorem readTyped_const {parse : String → Option ℚ} {v : Py} {hp : Hp} :
    (∃ v', readTyped parse "const" v = some (hp, v')) ↔
      ∃ x, Scalar parse v x ∧ hp = .const ⟨x, x⟩ := by
  unfold readTyped
  simp only [if_neg (show ¬ ("const" = "int" ∨ "const" = "integer") by decide),
    if_neg (show ¬ ("const" = "float") by decide),
    if_neg (show ¬ ("const" = "cat" ∨ "const" = "categorical") by decide), ↓reduceIte,
    Option.bind_eq_bind, Option.bind_eq_some_iff, Option.pure_def, Option.some.injEq,
    Prod.mk.injEq]
  constructor
  · rintro ⟨v', w, h1, x, h2, rfl, rfl⟩
    exact ⟨x, scalar_iff.mp (by rw [h1]; exact h2), rfl⟩
  · rintro ⟨x, h, rfl⟩
    obtain ⟨w, h1, h2⟩ := Option.bind_eq_some_iff.mp (scalar_iff.mpr h)
    exact ⟨v, w, h1, x, h2, rfl, rfl⟩

theorem not_isInt_sci {l u : Py} (h : SciText l ∨ SciText u) :
    (l.isInt && u.isInt) = false ∧ (l.isFloat && u.isFloat) = false := by
  rcases h with ⟨⟨_⟩⟩ | ⟨⟨_⟩⟩
  · exact ⟨rfl, rfl⟩
  · constructor <;> rw [Bool.and_eq_false_iff] <;> exact Or.inr rfl

/-- What `deduce_param_type` finds. -/
theorem deduceParamType_iff {parse : String → Option ℚ} {d d' : Dict Py} {t : String} :
    deduceParamType parse d = some (t, d') ↔
      (∃ l u, d.get? "lower" = some l ∧ d.get? "upper" = some u ∧ IntLike l ∧ IntLike u ∧
        t = "int" ∧ d' = d) ∨
      (∃ l u, d.get? "lower" = some l ∧ d.get? "upper" = some u ∧ FloatLike l ∧ FloatLike u ∧
        t = "float" ∧ d' = d) ∨
      (∃ l u x y, d.get? "lower" = some l ∧ d.get? "upper" = some u ∧ Num parse l x ∧
        Num parse u y ∧ (SciText l ∨ SciText u) ∧ t = "float" ∧
        d' = (d.set "lower" (.float x)).set "upper" (.float y)) ∨
      ((d.get? "lower" = none ∨ d.get? "upper" = none) ∧ (∃ c, d.get? "choices" = some c) ∧
        t = "categorical" ∧ d' = d) := by
  have hno : (d.get? "lower" = none ∨ d.get? "upper" = none) → deduceParamType parse d =
      if "choices" ∈ d.keys then some ("categorical", d) else none := by
    intro h
    unfold deduceParamType
    rcases h with h | h
    · rw [h]
    · rw [h]
      cases d.get? "lower" <;> rfl
  constructor
  · intro h
    cases hl : d.get? "lower" with
    | none =>
      rw [hno (Or.inl hl)] at h
      split_ifs at h with hc
      cases h
      exact Or.inr (Or.inr (Or.inr ⟨Or.inl rfl, Dict.mem_keys_iff.mp hc, rfl, rfl⟩))
    | some l =>
      cases hu : d.get? "upper" with
      | none =>
        rw [hno (Or.inr hu)] at h
        split_ifs at h with hc
        cases h
        exact Or.inr (Or.inr (Or.inr ⟨Or.inr rfl, Dict.mem_keys_iff.mp hc, rfl, rfl⟩))
      | some u =>
        unfold deduceParamType at h
        rw [hl, hu] at h
        simp only at h
        split_ifs at h with h1 h2
        · cases h
          rw [Bool.and_eq_true] at h1
          exact Or.inl ⟨l, u, rfl, rfl, isInt_iff.mp h1.1, isInt_iff.mp h1.2, rfl, rfl⟩
        · cases h
          rw [Bool.and_eq_true] at h2
          exact Or.inr (Or.inl ⟨l, u, rfl, rfl, isFloat_iff.mp h2.1, isFloat_iff.mp h2.2, rfl, rfl⟩)
        · cases hc : convert parse l with
          | valueError => rw [hc] at h; cases h
          | typeError => rw [hc] at h; cases h
          | ok x f =>
            cases hc' : convert parse u with
            | valueError => rw [hc, hc'] at h; cases h
            | typeError => rw [hc, hc'] at h; cases h
            | ok y g =>
              rw [hc, hc'] at h
              simp only at h
              split_ifs at h with h3
              cases h
              exact Or.inr (Or.inr (Or.inl ⟨l, u, x, y, rfl, rfl, (convert_ok.mp hc).1,
                (convert_ok.mp hc').1, (or_eq_true_iff hc hc').mp h3, rfl, rfl⟩))
  · rintro (⟨l, u, hl, hu, i1, i2, rfl, rfl⟩ | ⟨l, u, hl, hu, i1, i2, rfl, rfl⟩ |
      ⟨l, u, x, y, hl, hu, n1, n2, hs, rfl, rfl⟩ | ⟨h, hc, rfl, rfl⟩)
    · unfold deduceParamType
      rw [hl, hu]
      simp only [isInt_iff.mpr i1, isInt_iff.mpr i2, Bool.and_self, ↓reduceIte]
    · unfold deduceParamType
      rw [hl, hu]
      have : (l.isInt && u.isInt) = false := by cases i1; rfl
      simp only [this, Bool.false_eq_true, isFloat_iff.mpr i1, isFloat_iff.mpr i2, Bool.and_self,
        ↓reduceIte]
    · unfold deduceParamType
      rw [hl, hu]
      obtain ⟨f, hf⟩ := num_convert n1
      obtain ⟨g, hg⟩ := num_convert n2
      obtain ⟨e1, e2⟩ := not_isInt_sci hs
      simp only [e1, e2, Bool.false_eq_true, ↓reduceIte, hf, hg, (or_eq_true_iff hf hg).mpr hs]
    · rw [hno h, if_pos (Dict.mem_keys_iff.mpr hc)]

theorem readParam_typed {parse : String → Option ℚ} {d : Dict Py} {t : String}
    (h : d.get? "type" = some (.str t)) :
    readParam parse (.dict d) = readTyped parse t.toLower (.dict (d.erase "type")) := by
  unfold readParam deduceType
  simp only [h]
  rfl

theorem readParam_untyped {parse : String → Option ℚ} {d : Dict Py} (h : d.get? "type" = none) :
    readParam parse (.dict d) =
      (deduceParamType parse d).bind fun r => readTyped parse r.1 (.dict r.2) := by
  unfold readParam deduceType
  simp only [h]
  cases deduceParamType parse d <;> rfl

theorem readParam_scalar {parse : String → Option ℚ} {v : Py} (h : v.isScalar = true) :
    readParam parse v = readTyped parse "const" v := by
  unfold readParam deduceType
  cases v with
  | dict d => cases h
  | _ => simp only [h, ↓reduceIte]; rfl

theorem type_notMem_erase (d : Dict Py) : "type" ∉ (d.erase "type").keys := by
  rw [Dict.mem_keys_erase]; simp

theorem type_notMem {d : Dict Py} (h : d.get? "type" = none) : "type" ∉ d.keys :=
  Dict.get?_eq_none_iff.mp h

theorem sciBounds {parse : String → Option ℚ} {d : Dict Py} {l u : Py} {x y : ℚ}
    (hl : d.get? "lower" = some l) (hu : d.get? "upper" = some u) (n1 : Num parse l x)
    (n2 : Num parse u y) : BoundsFormatted parse FloatLike d
      ((d.set "lower" (.float x)).set "upper" (.float y)) :=
  boundsFormatted_set hl hu (.float x) (.float y) rfl rfl n1 n2

/-! ## C39 -/

/-- **C39**: scientific notation is recognised exactly where the grammar says so. -/
theorem C39_scientific (parse : String → Option ℚ) (s : String) (x : ℚ) :
    convert parse (.str s) = .ok x true ↔ parse s = some x ∧ Sci s := by
  rw [convert_ok]
  constructor
  · rintro ⟨h, h'⟩
    obtain ⟨h'⟩ := h'.mp rfl
    cases h with
    | str h => exact ⟨h, h'⟩
  · rintro ⟨h, h'⟩
    exact ⟨.str h, by simp [SciText.str h']⟩

/-- **C39**: a description yields a parameter exactly if it denotes one, and then this one.  All
other descriptions raise. -/
theorem C39_describes (parse : String → Option ℚ) (v : Py) (hp : Hp) :
    (∃ v', readParam parse v = some (hp, v')) ↔ Describes parse v hp := by
  constructor
  · intro h
    cases v with
    | dict d =>
      cases ht : Dict.get? d "type" with
      | some tv =>
        cases tv with
        | str t =>
          rw [readParam_typed ht] at h
          obtain ⟨v', h'⟩ := h
          rcases typed_other h' with hk | hk | hk
          · obtain ⟨l, u, log, fid, dflt, score, p, a, b, c, rfl⟩ :=
              (typed_int hk (type_notMem_erase d)).mp ⟨v', h'⟩
            exact .int (.typeInt ht hk) (intBounds_erase.mp a) (numDecl_erase.mp b) c
          · rw [hk] at h'
            obtain ⟨l, u, log, fid, dflt, score, p, b, c, rfl⟩ :=
              (typed_float (type_notMem_erase d)).mp ⟨v', h'⟩
            exact .float (.typeFloat ht hk) (numDecl_erase.mp b) c
          · obtain ⟨cs, vs, dflt, name, score, p, a, b, c, e, f, g, i, rfl⟩ :=
              (typed_cat hk (type_notMem_erase d)).mp ⟨v', h'⟩
            rw [Dict.get?_erase, if_neg (by decide)] at b e
            unfold Confidence at f
            rw [Dict.get?_erase, if_neg (by decide)] at f
            refine .cat (.typeCat ht hk) (fun k hk' => ?_) b c e f g i
            by_cases e : k = "type"
            · rw [e]; exact List.mem_cons_self ..
            · exact a k (Dict.mem_keys_erase.mpr ⟨e, hk'⟩)
        | _ =>
          exfalso
          obtain ⟨v', h'⟩ := h
          unfold readParam deduceType at h'
          simp only [ht] at h'
          cases h'
      | none =>
        rw [readParam_untyped ht] at h
        have hn := type_notMem ht
        cases hd : deduceParamType parse d with
        | none => rw [hd] at h; obtain ⟨v', h'⟩ := h; cases h'
        | some r =>
          obtain ⟨t, d'⟩ := r
          rw [hd] at h
          simp only [Option.bind_some] at h
          rcases deduceParamType_iff.mp hd with ⟨l, u, hl, hu, i1, i2, rfl, rfl⟩ |
            ⟨l, u, hl, hu, i1, i2, rfl, rfl⟩ | ⟨l, u, x, y, hl, hu, n1, n2, hs, rfl, rfl⟩ |
            ⟨h', ⟨c, hc⟩, rfl, rfl⟩
          · obtain ⟨l', u', log, fid, dflt, score, p, a, b, c, rfl⟩ :=
              (typed_int (Or.inl rfl) hn).mp h
            exact .int (.ints ht hl hu i1 i2) a b c
          · obtain ⟨l', u', log, fid, dflt, score, p, b, c, rfl⟩ := (typed_float hn).mp h
            exact .float (.floats ht hl hu i1 i2) b c
          · have hb := sciBounds hl hu n1 n2
            obtain ⟨l', u', log, fid, dflt, score, p, b, c, rfl⟩ :=
              (typed_float (fun hm => hn ((hb.keys _).mp hm))).mp h
            exact .float (.sci ht hl hu n1 n2 hs) ((numDecl_bounds hb).mp b) c
          · obtain ⟨cs, vs, dflt, name, score, p, a, b, c, e, f, g, i, rfl⟩ :=
              (typed_cat (Or.inr rfl) hn).mp h
            exact .cat (.choices ht h' hc) a b c e f g i
    | null => obtain ⟨v', h'⟩ := h; cases h'
    | list l => obtain ⟨v', h'⟩ := h; cases h'
    | obj o => obtain ⟨v', h'⟩ := h; cases h'
    | bool b =>
      rw [readParam_scalar rfl] at h
      obtain ⟨x, hx, rfl⟩ := readTyped_const.mp h
      exact .const hx
    | int b =>
      rw [readParam_scalar rfl] at h
      obtain ⟨x, hx, rfl⟩ := readTyped_const.mp h
      exact .const hx
    | float b =>
      rw [readParam_scalar rfl] at h
      obtain ⟨x, hx, rfl⟩ := readTyped_const.mp h
      exact .const hx
    | str b =>
      rw [readParam_scalar rfl] at h
      obtain ⟨x, hx, rfl⟩ := readTyped_const.mp h
      exact .const hx
  · intro h
    cases h with
    | const hx =>
      rw [readParam_scalar (scalar_isScalar hx)]
      exact readTyped_const.mpr ⟨_, hx, rfl⟩
    | @int d l u log fid dflt score p hk hb hd hm =>
      cases hk with
      | typeInt ht hk =>
        rw [readParam_typed ht]
        exact (typed_int hk (type_notMem_erase d)).mpr ⟨l, u, log, fid, dflt, score, p,
          intBounds_erase.mpr hb, numDecl_erase.mpr hd, hm, rfl⟩
      | ints ht hl hu i1 i2 =>
        rw [readParam_untyped ht, deduceParamType_iff.mpr (Or.inl ⟨_, _, hl, hu, i1, i2, rfl, rfl⟩)]
        exact (typed_int (Or.inl rfl) (type_notMem ht)).mpr ⟨l, u, log, fid, dflt, score, p,
          hb, hd, hm, rfl⟩
    | @float d l u log fid dflt score p hk hd hm =>
      cases hk with
      | typeFloat ht hk =>
        rw [readParam_typed ht, hk]
        exact (typed_float (type_notMem_erase d)).mpr ⟨l, u, log, fid, dflt, score, p,
          numDecl_erase.mpr hd, hm, rfl⟩
      | floats ht hl hu i1 i2 =>
        rw [readParam_untyped ht,
          deduceParamType_iff.mpr (Or.inr (Or.inl ⟨_, _, hl, hu, i1, i2, rfl, rfl⟩))]
        exact (typed_float (type_notMem ht)).mpr ⟨l, u, log, fid, dflt, score, p, hd, hm, rfl⟩
      | sci ht hl hu n1 n2 hs =>
        rw [readParam_untyped ht, deduceParamType_iff.mpr
          (Or.inr (Or.inr (Or.inl ⟨_, _, _, _, hl, hu, n1, n2, hs, rfl, rfl⟩)))]
        have hb := sciBounds hl hu n1 n2
        exact (typed_float (fun hm => type_notMem ht ((hb.keys _).mp hm))).mpr ⟨l, u, log, fid, dflt,
          score, p, (numDecl_bounds hb).mpr hd, hm, rfl⟩
    | @cat d cs vs dflt name score p hk a b c e f g i =>
      cases hk with
      | typeCat ht hk =>
        rw [readParam_typed ht]
        refine (typed_cat hk (type_notMem_erase d)).mpr ⟨cs, vs, dflt, name, score, p,
          fun k hk' => a k (Dict.mem_keys_erase.mp hk').2, ?_, c, ?_, ?_, g, i, rfl⟩
        · rw [Dict.get?_erase, if_neg (by decide)]; exact b
        · rw [Dict.get?_erase, if_neg (by decide)]; exact e
        · unfold Confidence; rw [Dict.get?_erase, if_neg (by decide)]; exact f
      | choices ht hn hc =>
        rw [readParam_untyped ht,
          deduceParamType_iff.mpr (Or.inr (Or.inr (Or.inr ⟨hn, ⟨_, hc⟩, rfl, rfl⟩)))]
        exact (typed_cat (Or.inr rfl) (type_notMem ht)).mpr ⟨cs, vs, dflt, name, score, p, a, b, c,
          e, f, g, i, rfl⟩

/-- **C39**: the parameter has the kind the description asks for. -/
theorem C39_kind (parse : String → Option ℚ) {v v' : Py} {hp : Hp}
    (h : readParam parse v = some (hp, v')) : HasKind parse v (kindOf hp) := by
  cases (C39_describes parse v hp).mp ⟨v', h⟩ with
  | const hx => exact .const hx
  | int hk => exact hk
  | float hk => exact hk
  | cat hk => exact hk

/-- **C39**: a description asks for at most one kind. -/
theorem C39_kind_unique (parse : String → Option ℚ) {v : Py} {k k' : Kind} (h : HasKind parse v k)
    (h' : HasKind parse v k') : k = k' := by
  have hsi : ∀ {l u : Py}, SciText l ∨ SciText u → IntLike l → IntLike u → False := by
    rintro l u (⟨⟨_⟩⟩ | ⟨⟨_⟩⟩) a b
    · cases a
    · cases b
  cases h with
  | const hx => cases hx <;> cases h' <;> rfl
  | typeInt h1 h2 =>
    cases h' with
    | const hx => cases hx
    | typeInt => rfl
    | typeFloat h3 h4 => rw [h1] at h3; cases h3; rw [h4] at h2; revert h2; decide
    | typeCat h3 h4 =>
      rw [h1] at h3; cases h3
      rcases h4 with h4 | h4 <;> (rw [h4] at h2; revert h2; decide)
    | ints => rfl
    | floats h3 => rw [h1] at h3; cases h3
    | sci h3 => rw [h1] at h3; cases h3
    | choices h3 => rw [h1] at h3; cases h3
  | typeFloat h1 h2 =>
    cases h' with
    | const hx => cases hx
    | typeInt h3 h4 => rw [h1] at h3; cases h3; rw [h2] at h4; revert h4; decide
    | typeFloat => rfl
    | typeCat h3 h4 => rw [h1] at h3; cases h3; rw [h2] at h4; revert h4; decide
    | ints h3 => rw [h1] at h3; cases h3
    | floats => rfl
    | sci => rfl
    | choices h3 => rw [h1] at h3; cases h3
  | typeCat h1 h2 =>
    cases h' with
    | const hx => cases hx
    | typeInt h3 h4 =>
      rw [h1] at h3; cases h3
      rcases h4 with h4 | h4 <;> (rw [h4] at h2; revert h2; decide)
    | typeFloat h3 h4 => rw [h1] at h3; cases h3; rw [h4] at h2; revert h2; decide
    | typeCat => rfl
    | ints h3 => rw [h1] at h3; cases h3
    | floats h3 => rw [h1] at h3; cases h3
    | sci h3 => rw [h1] at h3; cases h3
    | choices => rfl
  | ints h1 h2 h3 i1 i2 =>
    cases h' with
    | const hx => cases hx
    | typeInt => rfl
    | typeFloat h4 => rw [h1] at h4; cases h4
    | typeCat h4 => rw [h1] at h4; cases h4
    | ints => rfl
    | floats _ h4 h5 j1 j2 => rw [h2] at h4; cases h4; cases i1 <;> cases j1
    | sci _ h4 h5 _ _ hs =>
      rw [h2] at h4; cases h4
      rw [h3] at h5; cases h5
      exact (hsi hs i1 i2).elim
    | choices _ h4 =>
      rcases h4 with h4 | h4
      · rw [h2] at h4; cases h4
      · rw [h3] at h4; cases h4
  | floats h1 h2 h3 i1 i2 =>
    cases h' with
    | const hx => cases hx
    | typeInt h4 => rw [h1] at h4; cases h4
    | typeFloat => rfl
    | typeCat h4 => rw [h1] at h4; cases h4
    | ints _ h4 h5 j1 j2 => rw [h2] at h4; cases h4; cases i1; cases j1
    | floats => rfl
    | sci => rfl
    | choices _ h4 =>
      rcases h4 with h4 | h4
      · rw [h2] at h4; cases h4
      · rw [h3] at h4; cases h4
  | sci h1 h2 h3 n1 n2 hs =>
    cases h' with
    | const hx => cases hx
    | typeInt h4 => rw [h1] at h4; cases h4
    | typeFloat => rfl
    | typeCat h4 => rw [h1] at h4; cases h4
    | ints _ h4 h5 j1 j2 =>
      rw [h2] at h4; cases h4
      rw [h3] at h5; cases h5
      exact (hsi hs j1 j2).elim
    | floats => rfl
    | sci => rfl
    | choices _ h4 =>
      rcases h4 with h4 | h4
      · rw [h2] at h4; cases h4
      · rw [h3] at h4; cases h4
  | choices h1 h2 h3 =>
    cases h' with
    | const hx => cases hx
    | typeInt h4 => rw [h1] at h4; cases h4
    | typeFloat h4 => rw [h1] at h4; cases h4
    | typeCat => rfl
    | ints _ h4 h5 _ _ =>
      rcases h2 with h2 | h2
      · rw [h2] at h4; cases h4
      · rw [h2] at h5; cases h5
    | floats _ h4 h5 _ _ =>
      rcases h2 with h2 | h2
      · rw [h2] at h4; cases h4
      · rw [h2] at h5; cases h5
    | sci _ h4 h5 _ _ _ =>
      rcases h2 with h2 | h2
      · rw [h2] at h4; cases h4
      · rw [h2] at h5; cases h5
    | choices => rfl

/-- **C39**: a description of no kind raises. -/
theorem C39_rejected (parse : String → Option ℚ) {v : Py} (h : ∀ k, ¬ HasKind parse v k) :
    readParam parse v = none := by
  cases hr : readParam parse v with
  | none => rfl
  | some r => exact absurd (C39_kind parse (v' := r.2) (hp := r.1) hr) (h _)

theorem readAll_iff {parse : String → Option ℚ} {body : List (String × Py)} {space : Dict Hp} :
    (∃ b', readAll parse body = some (space, b')) ↔
    List.Forall₂ (fun (c : String × Py) (s : String × Hp) => c.1 = s.1 ∧ Describes parse c.2 s.2)
      body space := by
  induction body generalizing space with
  | nil =>
    constructor
    · rintro ⟨b', h⟩
      cases h
      exact .nil
    · rintro ⟨⟩
      exact ⟨[], rfl⟩
  | cons c body ih =>
    obtain ⟨k, v⟩ := c
    constructor
    · rintro ⟨b', h⟩
      unfold readAll at h
      simp only [Option.bind_eq_bind, Option.bind_eq_some_iff, Option.pure_def, Option.some.injEq,
        Prod.mk.injEq] at h
      obtain ⟨r, h1, rs, h2, rfl, h3⟩ := h
      exact .cons ⟨rfl, (C39_describes parse v r.1).mp ⟨r.2, h1⟩⟩ (ih.mp ⟨rs.2, h2⟩)
    · rintro (_ | ⟨⟨h1, h2⟩, h3⟩)
      rename_i s ss
      obtain ⟨k', hp⟩ := s
      simp only at h1 h2
      subst h1
      obtain ⟨v', h4⟩ := (C39_describes parse v hp).mpr h2
      obtain ⟨b', h5⟩ := ih.mpr h3
      refine ⟨(k, v') :: b', ?_⟩
      unfold readAll
      rw [h4, h5]
      rfl

/-- **C39**: a document yields the space it describes, and raises if one of its descriptions does not
denote a parameter. -/
theorem C39_space (parse : String → Option ℚ) (config : Dict Py) (space : Dict Hp) :
    (∃ c', spaceFromYaml parse config = some (space, c')) ↔ DescribesSpace parse config space := by
  unfold DescribesSpace
  constructor
  · rintro ⟨c', h⟩
    unfold spaceFromYaml at h
    split at h
    · rename_i v
      split at h
      · rename_i inner
        obtain ⟨r, h1, h2⟩ := Option.map_eq_some_iff.mp h
        cases h2
        exact ⟨inner, .inner inner, readAll_iff.mp ⟨r.2, h1⟩⟩
      · cases h
    · rename_i hne
      refine ⟨config, .plain ?_, readAll_iff.mp ⟨c', h⟩⟩
      intro hk
      match config, hk, hne with
      | [(k, v)], hk, hne =>
        simp only [Dict.keys, List.map_cons, List.map_nil, List.cons.injEq, and_true] at hk
        subst hk
        exact hne v rfl
  · rintro ⟨body, hb, hf⟩
    obtain ⟨b', h⟩ := readAll_iff.mpr hf
    cases hb with
    | inner d =>
      refine ⟨[("pipeline_space", .dict b')], ?_⟩
      unfold spaceFromYaml
      simp only [h, Option.map_some]
    | plain hk =>
      refine ⟨b', ?_⟩
      unfold spaceFromYaml
      split
      · exact absurd rfl hk
      · exact h

/-! ## C68 -/

theorem formatInt_idem {parse : String → Option ℚ} {d d' : Dict Py} (h : Formatted parse IntLike d d') :
    formatInt parse d' = some d' := by
  obtain ⟨vl, wl, xl, l1, l2, l3, l4, l5⟩ := h.lower
  obtain ⟨vu, wu, xu, u1, u2, u3, u4, u5⟩ := h.upper
  unfold formatInt formatIntBounds
  rw [l2, u2]
  simp only [isInt_iff.mpr l3, isInt_iff.mpr u3, Bool.and_self, ↓reduceIte, Option.bind_some]
  unfold formatIntDefault
  rcases h.dflt with ⟨a, b⟩ | ⟨v, w, x, a, b, c, e, f⟩
  · rw [b]
  · rw [b]
    simp only [isInt_iff.mpr c, ↓reduceIte]

theorem formatFloat_idem {parse : String → Option ℚ} {d d' : Dict Py}
    (h : Formatted parse FloatLike d d') : formatFloat parse d' = some d' := by
  obtain ⟨vl, wl, xl, l1, l2, l3, l4, l5⟩ := h.lower
  obtain ⟨vu, wu, xu, u1, u2, u3, u4, u5⟩ := h.upper
  unfold formatFloat formatFloatBounds
  rw [l2, u2]
  simp only [isFloat_iff.mpr l3, isFloat_iff.mpr u3, Bool.and_self, ↓reduceIte, Option.bind_some]
  unfold formatFloatDefault
  rcases h.dflt with ⟨a, b⟩ | ⟨v, w, x, a, b, c, e, f⟩
  · rw [b]
  · rw [b]
    simp only [isFloat_iff.mpr c, ↓reduceIte]

theorem set_eq_self {d : Dict Py} {k : String} {v : Py} (hk : k ∈ d.keys)
    (h : ∀ p ∈ d, p.1 = k → p.2 = v) : d.set k v = d := by
  unfold Dict.set
  rw [if_pos hk]
  conv_rhs => rw [← List.map_id d]
  refine List.map_congr_left fun p hp => ?_
  split_ifs with e
  · rw [← h p hp e, ← e]; rfl
  · rfl

theorem set_all {d : Dict Py} {k : String} {v : Py} (hk : k ∈ d.keys) :
    ∀ p ∈ d.set k v, p.1 = k → p.2 = v := by
  unfold Dict.set
  rw [if_pos hk]
  intro p hp e
  obtain ⟨q, hq, rfl⟩ := List.mem_map.mp hp
  split_ifs at e ⊢ with h1
  · rfl
  · exact absurd e h1

theorem set_other {d : Dict Py} {k k' : String} {v w : Py} (hk : k' ∈ d.keys) (hne : k ≠ k')
    (h : ∀ p ∈ d, p.1 = k → p.2 = v) : ∀ p ∈ d.set k' w, p.1 = k → p.2 = v := by
  unfold Dict.set
  rw [if_pos hk]
  intro p hp e
  obtain ⟨q, hq, rfl⟩ := List.mem_map.mp hp
  split_ifs at e ⊢ with h1
  · exact absurd e.symm hne
  · exact h q hq e

theorem formatCat_idem {parse : String → Option ℚ} {d d' : Dict Py} (h : formatCat parse d = some d') :
    formatCat parse d' = some d' := by
  unfold formatCat at h
  split at h
  · rename_i cs hc
    obtain ⟨l, h1, h2⟩ := Option.bind_eq_some_iff.mp h
    have hmem : "choices" ∈ d.keys := Dict.mem_keys_iff.mpr ⟨_, hc⟩
    have hset := set_all (v := .list l) hmem
    have hmem1 : "choices" ∈ (d.set "choices" (.list l)).keys :=
      Dict.mem_keys_set.mpr (Or.inl rfl)
    have hg : (d.set "choices" (.list l)).get? "choices" = some (.list l) := by
      rw [Dict.get?_set, if_pos rfl]
    unfold formatCatDefault at h2
    cases hd : (d.set "choices" (.list l)).get? "default" with
    | none =>
      rw [hd] at h2
      have h2 := Option.some.inj h2
      subst h2
      unfold formatCat
      rw [hg]
      simp only [mapM_convertSci_idem h1, Option.bind_some]
      rw [set_eq_self hmem1 hset]
      unfold formatCatDefault
      rw [hd]
    | some v =>
      rw [hd] at h2
      simp only at h2
      split_ifs at h2 with hs
      obtain ⟨w, hw, h2⟩ := Option.map_eq_some_iff.mp h2
      have hmd : "default" ∈ (d.set "choices" (.list l)).keys := Dict.mem_keys_iff.mpr ⟨v, hd⟩
      have hset' := set_other (w := w) hmd (by decide) hset
      rw [h2] at hset'
      have hmc : "choices" ∈ d'.keys := by
        rw [← h2]; exact Dict.mem_keys_set.mpr (Or.inr hmem1)
      have hmd' : "default" ∈ d'.keys := by
        rw [← h2]; exact Dict.mem_keys_set.mpr (Or.inl rfl)
      have hd' : d'.get? "default" = some w := by rw [← h2, Dict.get?_set, if_pos rfl]
      have hsd : ∀ p ∈ d', p.1 = "default" → p.2 = w := by rw [← h2]; exact set_all hmd
      unfold formatCat
      have : d'.get? "choices" = some (.list l) := by
        rw [← h2, Dict.get?_set, if_neg (by decide)]; exact hg
      rw [this]
      simp only [mapM_convertSci_idem h1, Option.bind_some]
      rw [set_eq_self hmc hset']
      unfold formatCatDefault
      rw [hd']
      simp only [(isScalar_of_convertSci hw).2, ↓reduceIte, convertSci_idem hw, Option.map_some]
      rw [set_eq_self hmd' hsd]
  · cases h

theorem callNum_keys {β : Type} {make : ℝ → ℝ → Bool → Bool → Option ℝ → ℝ → Option β} {d : Dict Py}
    {p : β} (h : callNum make d = some p) : ∀ k ∈ d.keys, k ∈ numKeys := by
  unfold callNum at h
  split_ifs at h with hk
  intro k hk'
  exact of_decide_eq_true (List.all_eq_true.mp hk k hk')

theorem callCat_keys {d : Dict Py} {p : CatParam Val} (h : callCat d = some p) :
    ∀ k ∈ d.keys, k ∈ catKeys := by
  unfold callCat at h
  split_ifs at h with hk
  intro k hk'
  exact of_decide_eq_true (List.all_eq_true.mp hk k hk')

theorem readTyped_idem {parse : String → Option ℚ} {t : String} {d : Dict Py} {hp : Hp} {v' : Py}
    (h : readTyped parse t (.dict d) = some (hp, v')) : readParam parse v' = some (hp, v') := by
  rcases typed_other h with hk | hk | hk
  · unfold readTyped at h
    simp only [if_pos hk, Option.bind_eq_bind, Option.bind_eq_some_iff, Option.pure_def,
      Option.some.injEq, Prod.mk.injEq] at h
    obtain ⟨d', h1, p, h2, rfl, rfl⟩ := h
    obtain ⟨hf, _⟩ := formatInt_some h1
    have ht : Dict.get? d' "type" = none :=
      Dict.get?_none fun hm => absurd (callNum_keys h2 _ hm) (by decide)
    obtain ⟨vl, wl, xl, l1, l2, l3, l4, l5⟩ := hf.lower
    obtain ⟨vu, wu, xu, u1, u2, u3, u4, u5⟩ := hf.upper
    rw [readParam_untyped ht, deduceParamType_iff.mpr (Or.inl ⟨_, _, l2, u2, l3, u3, rfl, rfl⟩)]
    simp only [Option.bind_some]
    unfold readTyped
    simp only [formatInt_idem hf, h2, Option.bind_eq_bind, Option.bind_some, true_or, ↓reduceIte]
    rfl
  · subst hk
    unfold readTyped at h
    simp only [if_neg (show ¬ ("float" = "int" ∨ "float" = "integer") by decide), ↓reduceIte,
      Option.bind_eq_bind, Option.bind_eq_some_iff, Option.pure_def,
      Option.some.injEq, Prod.mk.injEq] at h
    obtain ⟨d', h1, p, h2, rfl, rfl⟩ := h
    have hf := formatFloat_some h1
    have ht : Dict.get? d' "type" = none :=
      Dict.get?_none fun hm => absurd (callNum_keys h2 _ hm) (by decide)
    obtain ⟨vl, wl, xl, l1, l2, l3, l4, l5⟩ := hf.lower
    obtain ⟨vu, wu, xu, u1, u2, u3, u4, u5⟩ := hf.upper
    rw [readParam_untyped ht,
      deduceParamType_iff.mpr (Or.inr (Or.inl ⟨_, _, l2, u2, l3, u3, rfl, rfl⟩))]
    simp only [Option.bind_some]
    unfold readTyped
    simp only [formatFloat_idem hf, h2, Option.bind_eq_bind, Option.bind_some,
      if_neg (show ¬ ("float" = "int" ∨ "float" = "integer") by decide), ↓reduceIte]
    rfl
  · have n1 : ¬ (t = "int" ∨ t = "integer") := by rcases hk with rfl | rfl <;> decide
    have n2 : ¬ t = "float" := by rcases hk with rfl | rfl <;> decide
    unfold readTyped at h
    simp only [if_neg n1, if_neg n2, if_pos hk, Option.bind_eq_bind, Option.bind_eq_some_iff,
      Option.pure_def, Option.some.injEq, Prod.mk.injEq] at h
    obtain ⟨d', h1, p, h2, rfl, rfl⟩ := h
    obtain ⟨cs, l, hf⟩ := formatCat_some h1
    have ht : Dict.get? d' "type" = none :=
      Dict.get?_none fun hm => absurd (callCat_keys h2 _ hm) (by decide)
    have hl : Dict.get? d' "lower" = none :=
      Dict.get?_none fun hm => absurd (callCat_keys h2 _ hm) (by decide)
    rw [readParam_untyped ht, deduceParamType_iff.mpr
      (Or.inr (Or.inr (Or.inr ⟨Or.inl hl, ⟨_, hf.choices'⟩, rfl, rfl⟩)))]
    simp only [Option.bind_some]
    unfold readTyped
    simp only [formatCat_idem h1, h2, Option.bind_eq_bind, Option.bind_some,
      if_neg (show ¬ ("categorical" = "int" ∨ "categorical" = "integer") by decide),
      if_neg (show ¬ ("categorical" = "float") by decide), or_true, ↓reduceIte]
    rfl

/-- The description left behind by reading a parameter denotes the same parameter and is not changed
again. -/
theorem readParam_idem {parse : String → Option ℚ} {v v' : Py} {hp : Hp}
    (h : readParam parse v = some (hp, v')) : readParam parse v' = some (hp, v') := by
  have scalar : ∀ {v : Py}, v.isScalar = true → readParam parse v = some (hp, v') →
      readParam parse v' = some (hp, v') := by
    intro v hs h
    have h0 := h
    rw [readParam_scalar hs] at h
    unfold readTyped at h
    simp only [if_neg (show ¬ ("const" = "int" ∨ "const" = "integer") by decide),
      if_neg (show ¬ ("const" = "float") by decide),
      if_neg (show ¬ ("const" = "cat" ∨ "const" = "categorical") by decide), ↓reduceIte,
      Option.bind_eq_bind, Option.bind_eq_some_iff, Option.pure_def, Option.some.injEq,
      Prod.mk.injEq] at h
    obtain ⟨w, _, x, _, _, rfl⟩ := h
    exact h0
  cases v with
  | dict d =>
    cases ht : Dict.get? d "type" with
    | some tv =>
      cases tv with
      | str t => rw [readParam_typed ht] at h; exact readTyped_idem h
      | _ =>
        exfalso
        unfold readParam deduceType at h
        simp only [ht] at h
        cases h
    | none =>
      rw [readParam_untyped ht] at h
      obtain ⟨r, _, h2⟩ := Option.bind_eq_some_iff.mp h
      exact readTyped_idem h2
  | null => cases h
  | list l => cases h
  | obj o => cases h
  | bool b => exact scalar rfl h
  | int b => exact scalar rfl h
  | float b => exact scalar rfl h
  | str b => exact scalar rfl h

theorem readAll_idem {parse : String → Option ℚ} {body b' : List (String × Py)} {space : Dict Hp}
    (h : readAll parse body = some (space, b')) : readAll parse b' = some (space, b') := by
  induction body generalizing space b' with
  | nil => cases h; rfl
  | cons c body ih =>
    obtain ⟨k, v⟩ := c
    unfold readAll at h
    simp only [Option.bind_eq_bind, Option.bind_eq_some_iff, Option.pure_def, Option.some.injEq,
      Prod.mk.injEq] at h
    obtain ⟨r, h1, rs, h2, rfl, rfl⟩ := h
    unfold readAll
    rw [readParam_idem (v' := r.2) (hp := r.1) h1, ih (space := rs.1) (b' := rs.2) h2]
    rfl

theorem readAll_keys {parse : String → Option ℚ} {body b' : List (String × Py)} {space : Dict Hp}
    (h : readAll parse body = some (space, b')) : Dict.keys b' = Dict.keys body := by
  induction body generalizing space b' with
  | nil => cases h; rfl
  | cons c body ih =>
    obtain ⟨k, v⟩ := c
    unfold readAll at h
    simp only [Option.bind_eq_bind, Option.bind_eq_some_iff, Option.pure_def, Option.some.injEq,
      Prod.mk.injEq] at h
    obtain ⟨r, h1, rs, h2, rfl, rfl⟩ := h
    have := ih (space := rs.1) (b' := rs.2) h2
    unfold Dict.keys at *
    rw [List.map_cons, List.map_cons, this]

/-- **C68**: reading a dictionary changes it, but reading the changed dictionary gives the same space
and changes nothing any more. -/
theorem C68_read_again (parse : String → Option ℚ) {config config' : Dict Py} {space : Dict Hp}
    (h : spaceFromYaml parse config = some (space, config')) :
    spaceFromYaml parse config' = some (space, config') := by
  unfold spaceFromYaml at h
  split at h
  · rename_i v
    split at h
    · rename_i inner
      obtain ⟨r, h1, h2⟩ := Option.map_eq_some_iff.mp h
      cases h2
      unfold spaceFromYaml
      simp only [readAll_idem (space := r.1) (b' := r.2) h1, Option.map_some]
    · cases h
  · rename_i hne
    have hk := readAll_keys h
    unfold spaceFromYaml
    split
    · rename_i v
      exfalso
      match config, hk, hne with
      | [(k, w)], hk, hne =>
        simp only [Dict.keys, List.map_cons, List.map_nil, List.cons.injEq, and_true] at hk
        subst hk
        exact hne w rfl
    · exact readAll_idem h

/-- **C68**: the names of the parameters are those of the document, in its order, before and after.
-/
theorem C68_names (parse : String → Option ℚ) {body body' : Dict Py} {space : Dict Hp}
    (hb : body.keys ≠ ["pipeline_space"])
    (h : spaceFromYaml parse body = some (space, body')) :
    space.keys = body.keys ∧ body'.keys = body.keys := by
  have hr : readAll parse body = some (space, body') := by
    unfold spaceFromYaml at h
    split at h
    · exact absurd rfl hb
    · exact h
  refine ⟨?_, readAll_keys hr⟩
  have := readAll_iff.mp ⟨_, hr⟩
  clear h hr hb
  induction this with
  | nil => rfl
  | cons h1 _ ih => unfold Dict.keys at *; rw [List.map_cons, List.map_cons, ih, h1.1]

/-- **C68**: the dictionary of the caller does change. -/
theorem C68_unchanged_fails : ∃ (parse : String → Option ℚ) (config config' : Dict Py)
    (space : Dict Hp), spaceFromYaml parse config = some (space, config') ∧ config ≠ config' := by
  refine ⟨fun _ => none, [("n", .dict [("type", .str "cat"), ("choices", .list [.int 1, .int 2])])],
    [("n", .dict [("choices", .list [.int 1, .int 2])])],
    [("n", .cat ⟨[.num 1, .num 2], none, none, false, 2, 2, none, none⟩)], ?_, by simp⟩
  have hl : "cat".toLower = "cat" := by decide +kernel
  simp [spaceFromYaml, readAll, readParam, deduceType, Dict.get?, hl, Dict.erase, readTyped,
    formatCat, convertSci, convert, Dict.set, Dict.keys, formatCatDefault, callCat, catKeys,
    Py.val, defaultVal, confidenceArg, catScore, CatParam.make]

/-! ## Limits of C39 -/

/-- **C39** does not cover scientific notation with a plus sign: `1e+3` stays a text, and as a bound
it is rejected, although Python reads it as a number. -/
theorem C39_plus_exponent_fails (parse : String → Option ℚ) (_h : parse "1e+3" = some 1000)
    (_h' : parse "1e+4" = some 10000) :
    (∃ v', readParam parse (.str "1e+3") = some (.const ⟨.str "1e+3", .str "1e+3"⟩, v')) ∧
    readParam parse (.dict [("lower", .str "1e+3"), ("upper", .str "1e+4")]) = none := by
  have n1 : ¬ Sci "1e+3" := by rw [← isSci_iff]; decide +kernel
  have n2 : ¬ Sci "1e+4" := by rw [← isSci_iff]; decide +kernel
  constructor
  · exact (C39_describes ..).mpr (.const (.text fun h => n1 h.1))
  · refine C39_rejected parse fun k hk => ?_
    cases hk with
    | const hx => cases hx
    | typeInt h => cases h
    | typeFloat h => cases h
    | typeCat h => cases h
    | ints _ h1 _ i1 _ => cases h1; cases i1
    | floats _ h1 _ i1 _ => cases h1; cases i1
    | sci _ h1 h2 _ _ hs =>
      cases h1; cases h2
      rcases hs with ⟨⟨h⟩⟩ | ⟨⟨h⟩⟩
      · exact n1 h
      · exact n2 h
    | choices _ h1 _ => rcases h1 with h1 | h1 <;> cases h1

/-- **C39**: a mixed pair of an integer and a float is rejected, whatever the numbers. -/
theorem C39_mixed_bounds (parse : String → Option ℚ) {d : Dict Py} {n : ℤ} {x : ℚ}
    (ht : d.get? "type" = none) (hl : d.get? "lower" = some (.int n))
    (hu : d.get? "upper" = some (.float x)) : readParam parse (.dict d) = none := by
  refine C39_rejected parse fun k hk => ?_
  cases hk with
  | const hx => cases hx
  | typeInt h => rw [ht] at h; cases h
  | typeFloat h => rw [ht] at h; cases h
  | typeCat h => rw [ht] at h; cases h
  | ints _ h1 h2 i1 i2 => rw [hu] at h2; cases h2; cases i2
  | floats _ h1 _ i1 _ => rw [hl] at h1; cases h1; cases i1
  | sci _ h1 h2 _ _ hs =>
    rw [hl] at h1; rw [hu] at h2
    cases h1; cases h2
    rcases hs with h | h <;> cases h
  | choices _ h1 _ =>
    rcases h1 with h1 | h1
    · rw [hl] at h1; cases h1
    · rw [hu] at h1; cases h1

/-! ## C69 -/

/-- The outside world with the reader of search spaces modelled here. -/
noncomputable def yamlEnv (parse : String → Option ℚ) (file : String → Option Py)
    (imp : String → String → Option Py) : Env :=
  ⟨file, imp, fun d => (spaceFromYaml parse d).map fun r => r.1⟩

/-- **C69**: a space written in the run arguments is the space it describes, unless its parameters
are exactly `path` and `name`.  (The full property, without this condition, fails:
`C69_path_name_fails`.) -/
theorem C69_inline_partial (parse : String → Option ℚ) (file : String → Option Py)
    (imp : String → String → Option Py) (d : Dict Py) (space : Dict Hp)
    (hd : ¬ (d.length = 2 ∧ "path" ∈ d.keys ∧ "name" ∈ d.keys)) :
    pipelineSpaceOf (yamlEnv parse file imp) (.dict d) = some (.obj (.space space)) ↔
      DescribesSpace parse d space := by
  rw [← C39_space]
  have : pipelineSpaceOf (yamlEnv parse file imp) (.dict d) =
      ((spaceFromYaml parse d).map fun r => r.1).map fun s => .obj (.space s) := by
    unfold pipelineSpaceOf
    simp only
    split
    · rename_i p n h1 h2
      rw [if_neg]
      · rfl
      · intro h
        exact hd ⟨h, Dict.mem_keys_iff.mpr ⟨_, h1⟩, Dict.mem_keys_iff.mpr ⟨_, h2⟩⟩
    · rfl
  rw [this]
  simp only [Option.map_map, Option.map_eq_some_iff, Function.comp, Py.obj.injEq, Obj.space.injEq]
  constructor
  · rintro ⟨r, h1, h2⟩; exact ⟨r.2, by rw [h1, ← h2]⟩
  · rintro ⟨c', h⟩; exact ⟨(space, c'), h, rfl⟩

/-- **C69**: the same for a space in a file of its own, without condition. -/
theorem C69_file (parse : String → Option ℚ) (file : String → Option Py)
    (imp : String → String → Option Py) (path : String) (d : Dict Py) (space : Dict Hp)
    (hf : file path = some (.dict d)) :
    pipelineSpaceOf (yamlEnv parse file imp) (.str path) = some (.obj (.space space)) ↔
      DescribesSpace parse d space := by
  rw [← C39_space]
  unfold pipelineSpaceOf spaceFile yamlEnv
  simp only [hf, Option.map_map, Option.map_eq_some_iff, Function.comp, Py.obj.injEq,
    Obj.space.injEq]
  constructor
  · rintro ⟨r, h1, h2⟩; exact ⟨r.2, by rw [h1, ← h2]⟩
  · rintro ⟨c', h⟩; exact ⟨(space, c'), h, rfl⟩

/-- **C69** fails for a space with the two parameters `path` and `name`: if they are described by
dictionaries the call raises, whatever the files. -/
theorem C69_path_name_fails (env : Env) (a b : Dict Py) :
    pipelineSpaceOf env (.dict [("path", .dict a), ("name", .dict b)]) = none := rfl

/-! ## Examples -/

/-- A float given by scientific notation, with default. -/
noncomputable example : ∃ v', readParam (fun s => if s = "1e-2" then some (1 / 100) else none)
    (.dict [("lower", .str "1e-2"), ("upper", .float 2), ("default", .int 1), ("log", .bool true)]) =
    some (.float ⟨1 / 100, 2, true, false, some 1, true, 1 / 2, 1 / 2, none, none⟩, v') := by
  have hs : Sci "1e-2" := by rw [← isSci_iff]; decide +kernel
  refine (C39_describes ..).mpr (.float (l := 1 / 100) (u := 2) (log := true) (fid := false)
    (dflt := some ((1 : ℤ) : ℚ)) (score := 1 / 2)
    (.sci rfl rfl rfl (.str (by simp; rfl)) (.float 2) (Or.inl (.str hs)))
    ⟨?_, ⟨_, rfl, .str (by simp)⟩, ⟨_, rfl, .float 2⟩, Or.inl rfl, Or.inr ⟨rfl, rfl⟩,
      Or.inr ⟨_, _, rfl, .int 1, rfl⟩, "low", Or.inr ⟨rfl, rfl⟩, by simp⟩ ?_)
  · decide
  · unfold FloatParam.make
    norm_num

/-- Two integers. -/
noncomputable example : HasKind (fun _ => none) (.dict [("lower", .int 1), ("upper", .int 9)]) .int :=
  .ints rfl rfl rfl (.int 1) (.int 9)

/-- Choices, one of them in scientific notation. -/
noncomputable example : ∃ v', readParam (fun s => if s = "1e3" then some 1000 else none)
    (.dict [("choices", .list [.str "sgd", .str "1e3"])]) =
    some (.cat ⟨[.str "sgd", .num 1000], none, none, false, 2, 2, none, none⟩, v') := by
  have hs : Sci "1e3" := by rw [← isSci_iff]; decide +kernel
  refine (C39_describes ..).mpr (.cat (vs := [.str "sgd", .num (1000 : ℚ)]) (dflt := none)
    (name := "low") (score := 2) (.choices rfl (Or.inl rfl) rfl) (by decide) rfl
    (.cons (.text (by simp)) (.cons (.sci hs (by simp)) .nil)) (Or.inl ⟨rfl, rfl⟩)
    (Or.inr ⟨rfl, rfl⟩) (by simp) ?_)
  simp [CatParam.make]

end Verif.Args
