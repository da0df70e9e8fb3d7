import Verif.Space.SpaceSpec
import Verif.Space.ParamProps
import Verif.Space.EncodeLemmas

/-! # Lemmas about search spaces -/

namespace Verif.Space

/-! ## Copies and neighbours keep the declaration -/

theorem FloatParam.clone_used {p q : FloatParam} (h : p.clone = some q) : q.Used := by
  unfold FloatParam.clone at h
  rw [Option.bind_eq_bind, Option.bind_eq_some_iff] at h
  obtain ⟨r, hr, h⟩ := h
  split at h
  · simp only [Option.pure_def, Option.some.injEq] at h
    rw [← h]; exact .make hr
  · simp only at h
    split_ifs at h
    simp only [Option.pure_def, Option.some.injEq] at h
    rw [← h]; exact .setValue _ (.make hr)

theorem IntParam.clone_used {p q : IntParam} (h : p.clone = some q) : q.Used := by
  unfold IntParam.clone at h
  rw [Option.bind_eq_bind, Option.bind_eq_some_iff] at h
  obtain ⟨r, hr, h⟩ := h
  split at h
  · simp only [Option.pure_def, Option.some.injEq] at h
    rw [← h]; exact .make hr
  · simp only at h
    split_ifs at h
    simp only [Option.pure_def, Option.some.injEq] at h
    rw [← h]; exact .setValue _ (.make hr)

theorem CatParam.clone_used {α : Type*} [DecidableEq α] {p q : CatParam α} (h : p.clone = some q) :
    q.Used := by
  unfold CatParam.clone at h
  rw [Option.bind_eq_bind, Option.bind_eq_some_iff] at h
  obtain ⟨r, hr, h⟩ := h
  split at h
  · simp only [Option.pure_def, Option.some.injEq] at h
    rw [← h]; exact .make hr
  · simp only at h
    split_ifs at h
    simp only [Option.pure_def, Option.some.injEq] at h
    rw [← h]; exact .setValue _ (.make hr)

/-- A neighbour is a copy with another value set. -/
theorem FloatParam.neighbours_form {p : FloatParam} (k : ℕ) (draws : List ℝ)
    (ns : List FloatParam) (hn : p.neighbours k draws = some ns) :
    ∀ q ∈ ns, ∃ r v, p.clone = some r ∧ (r.setValue (some v)).raised = false ∧
      q = (r.setValue (some v)).st := by
  induction draws generalizing k ns with
  | nil =>
    cases k with
    | zero =>
      simp only [neighbours, Option.some.injEq] at hn
      subst hn
      simp
    | succ k => simp [neighbours] at hn
  | cons n draws ih =>
    cases k with
    | zero =>
      simp only [neighbours, Option.some.injEq] at hn
      subst hn
      simp
    | succ k =>
      unfold neighbours at hn
      split_ifs at hn with hc
      · exact ih _ _ hn
      · rw [Option.bind_eq_bind, Option.bind_eq_some_iff] at hn
        obtain ⟨r, hr, hn⟩ := hn
        simp only at hn
        split_ifs at hn with hra
        rw [Option.bind_eq_bind, Option.bind_eq_some_iff] at hn
        obtain ⟨rest, hrest, he⟩ := hn
        simp only [Option.pure_def, Option.some.injEq] at he
        subst he
        intro q hq
        rcases List.mem_cons.mp hq with rfl | hq
        · exact ⟨r, _, hr, by simpa using hra, rfl⟩
        · exact ih _ _ hrest q hq

/-- A neighbour is a copy with another value set. -/
theorem IntParam.neighbours_form {p : IntParam} (k : ℕ) (draws : List ℝ)
    (ns : List IntParam) (hn : p.neighbours k draws = some ns) :
    ∀ q ∈ ns, ∃ r v, p.clone = some r ∧ (r.setValue (some v)).raised = false ∧
      q = (r.setValue (some v)).st := by
  induction draws generalizing k ns with
  | nil =>
    cases k with
    | zero =>
      simp only [neighbours, Option.some.injEq] at hn
      subst hn
      simp
    | succ k => simp [neighbours] at hn
  | cons n draws ih =>
    cases k with
    | zero =>
      simp only [neighbours, Option.some.injEq] at hn
      subst hn
      simp
    | succ k =>
      unfold neighbours at hn
      split_ifs at hn with hc hne
      · exact ih _ _ hn
      · exact ih _ _ hn
      · rw [Option.bind_eq_bind, Option.bind_eq_some_iff] at hn
        obtain ⟨r, hr, hn⟩ := hn
        simp only at hn
        split_ifs at hn with hra
        rw [Option.bind_eq_bind, Option.bind_eq_some_iff] at hn
        obtain ⟨rest, hrest, he⟩ := hn
        simp only [Option.pure_def, Option.some.injEq] at he
        subst he
        intro q hq
        rcases List.mem_cons.mp hq with rfl | hq
        · exact ⟨r, _, hr, by simpa using hra, rfl⟩
        · exact ih _ _ hrest q hq

/-! ## Parameters of a space -/

namespace Hp

theorem SameDecl.refl (h : Hp) : h.SameDecl h := by cases h <;> simp [SameDecl]

theorem SameDecl.trans {a b c : Hp} (h1 : a.SameDecl b) (h2 : b.SameDecl c) : a.SameDecl c := by
  cases a <;> cases b <;> cases c <;> simp_all [SameDecl]

theorem SameDecl.symm {a b : Hp} (h1 : a.SameDecl b) : b.SameDecl a := by
  cases a <;> cases b <;> simp_all [SameDecl]

theorem SameDecl.accepts {a b : Hp} (h : a.SameDecl b) (v : Val) : a.Accepts v ↔ b.Accepts v := by
  cases a <;> cases b <;> simp_all [SameDecl, Accepts]

theorem SameDecl.isFidelity {a b : Hp} (h : a.SameDecl b) : b.isFidelity = a.isFidelity := by
  cases a <;> cases b <;> simp_all [SameDecl, Hp.isFidelity]

theorem SameDecl.dflt {a b : Hp} (h : a.SameDecl b) : b.dflt = a.dflt := by
  cases a <;> cases b <;> simp_all [SameDecl, Hp.dflt]

theorem SameDecl.mutatable {a b : Hp} (h : a.SameDecl b) : b.mutatable = a.mutatable := by
  cases a <;> cases b <;> simp_all [SameDecl, Hp.mutatable]

/-- Setting a legal value succeeds and stores it. -/
theorem setValue_ok {h : Hp} (hok : h.Ok) {v : Val} (hv : h.Accepts v) :
    (h.setValue v).raised = false ∧ (h.setValue v).st.value = some v ∧
      h.SameDecl (h.setValue v).st ∧ (h.setValue v).st.Ok := by
  have hu := hok.used
  cases h with
  | float p =>
    obtain ⟨x, rfl, hx⟩ := hv
    have hi : p.Inv := FloatParam.Used.inv hu
    have e : p.setValue (some x) =
        ⟨{ p with value := some x, normalized := some (p.valueToNormalized x) }, false⟩ := by
      simp [FloatParam.setValue, hx]
    have hst : (Hp.setValue (.float p) (.num x)) =
        ⟨.float { p with value := some x, normalized := some (p.valueToNormalized x) }, false⟩ := by
      simp [Hp.setValue, e, Call.lift]
    rw [hst]
    refine ⟨rfl, rfl, by simp [SameDecl], ?_, ?_, ?_⟩
    · have := FloatParam.Used.setValue (some x) hu
      rw [e] at this
      exact this
    · intro v hv
      simp only [Hp.value, Option.map_some, Option.some.injEq] at hv
      exact ⟨x, hv.symm, hx⟩
    · exact hok.dflt
  | int p =>
    obtain ⟨n, rfl, hn⟩ := hv
    have hi : p.Inv := IntParam.Used.inv hu
    have hb : (p.lower : ℝ) ≤ (n : ℝ) ∧ (n : ℝ) ≤ (p.upper : ℝ) :=
      ⟨by exact_mod_cast hn.1, by exact_mod_cast hn.2⟩
    have e := (hi.setValue_ok hb).1
    simp only [rnd_intCast] at e
    have hst : (Hp.setValue (.int p) (.num n)) = ⟨.int
        { p with floatHp := (p.floatHp.setValue (some (n : ℝ))).st, value := some n,
                 normalized := some (p.valueToNormalized n) }, false⟩ := by
      simp [Hp.setValue, e, Call.lift]
    rw [hst]
    refine ⟨rfl, rfl, by simp [SameDecl], ?_, ?_, ?_⟩
    · have := IntParam.Used.setValue (some (n : ℝ)) hu
      rw [e] at this
      exact this
    · intro v hv
      have hv' : some (Val.num (n : ℝ)) = some v := hv
      simp only [Option.some.injEq] at hv'
      exact ⟨n, hv'.symm, hn⟩
    · exact hok.dflt
  | cat p =>
    obtain ⟨i, _, e⟩ := CatParam.setValue_mem (p := p) hv
    have hst : (Hp.setValue (.cat p) v) =
        ⟨.cat { p with value := some v, valueIndex := some i }, false⟩ := by
      simp [Hp.setValue, e, Call.lift]
    rw [hst]
    refine ⟨rfl, rfl, by simp [SameDecl], ?_, ?_, ?_⟩
    · have := CatParam.Used.setValue (some v) hu
      rw [e] at this
      exact this
    · intro w hw
      simp only [Hp.value, Option.some.injEq] at hw
      subst hw
      exact hv
    · exact hok.dflt
  | const p =>
    have hv' : v = p.value := hv
    subst hv'
    have hst : (Hp.setValue (.const p) p.value) = ⟨.const p, false⟩ := by
      simp [Hp.setValue, ConstParam.setValue, Call.lift]
    rw [hst]
    exact ⟨rfl, rfl, SameDecl.refl _, hok⟩

theorem SameDecl.range {a b : Hp} (h : a.SameDecl b) : a.SameRange b := by
  cases a <;> cases b <;> simp_all [SameDecl, SameRange]

theorem SameRange.refl (h : Hp) : h.SameRange h := by cases h <;> simp [SameRange]

theorem SameRange.trans {a b c : Hp} (h1 : a.SameRange b) (h2 : b.SameRange c) :
    a.SameRange c := by
  cases a <;> cases b <;> cases c <;> simp_all [SameRange]

theorem SameRange.accepts {a b : Hp} (h : a.SameRange b) (v : Val) : a.Accepts v ↔ b.Accepts v := by
  cases a <;> cases b <;> simp_all [SameRange, Accepts]

theorem SameRange.isConst {a b : Hp} (h : a.SameRange b) : a.IsConst ↔ b.IsConst := by
  cases a <;> cases b <;> simp_all [SameRange, IsConst]

theorem unsetValue_ok {h : Hp} (hok : h.Ok) (hc : ¬ h.IsConst) :
    h.unsetValue.raised = false ∧ h.SameRange h.unsetValue.st ∧ h.unsetValue.st.value = none ∧
      h.unsetValue.st.dflt = h.dflt ∧ h.unsetValue.st.Ok := by
  have hu := hok.used
  cases h with
  | float p =>
    refine ⟨rfl, ⟨rfl, rfl, rfl, rfl⟩, rfl, rfl, ?_, (by intro v hv; cases hv), hok.dflt⟩
    exact FloatParam.Used.setValue none hu
  | int p =>
    refine ⟨rfl, ⟨rfl, rfl, rfl, rfl⟩, rfl, rfl, ?_, (by intro v hv; cases hv), hok.dflt⟩
    exact IntParam.Used.setValue none hu
  | cat p =>
    refine ⟨rfl, rfl, rfl, rfl, ?_, (by intro v hv; cases hv), hok.dflt⟩
    exact CatParam.Used.setValue none hu
  | const p => exact absurd trivial hc

theorem unsetDefault_ok {h : Hp} (hok : h.Ok) (hc : ¬ h.IsConst) :
    h.unsetDefault.raised = false ∧ h.SameRange h.unsetDefault.st ∧
      h.unsetDefault.st.value = h.value ∧ h.unsetDefault.st.dflt = none ∧
      h.unsetDefault.st.Ok := by
  have hu := hok.used
  cases h with
  | float p =>
    refine ⟨rfl, ⟨rfl, rfl, rfl, rfl⟩, rfl, rfl, ?_, hok.value, by intro v hv; cases hv⟩
    exact FloatParam.Used.setDefault none hu
  | int p =>
    refine ⟨rfl, ⟨rfl, rfl, rfl, rfl⟩, rfl, rfl, ?_, hok.value, by intro v hv; cases hv⟩
    exact IntParam.Used.setDefault none hu
  | cat p =>
    refine ⟨rfl, rfl, rfl, rfl, ?_, hok.value, by intro v hv; cases hv⟩
    exact CatParam.Used.setDefault none hu
  | const p => exact absurd trivial hc

theorem setDefault_ok {h : Hp} (hok : h.Ok) (hc : ¬ h.IsConst) {v : Val} (hv : h.Accepts v) :
    (h.setDefault v).raised = false ∧ h.SameRange (h.setDefault v).st ∧
      (h.setDefault v).st.value = h.value ∧ (h.setDefault v).st.dflt = some v ∧
      (h.setDefault v).st.Ok := by
  have hu := hok.used
  cases h with
  | float p =>
    obtain ⟨x, rfl, hx⟩ := hv
    have e : p.setDefault (some x) = ⟨{ p with dflt := some x, hasPrior := true }, false⟩ := by
      simp [FloatParam.setDefault, hx]
    have hst : (Hp.setDefault (.float p) (.num x)) =
        ⟨.float { p with dflt := some x, hasPrior := true }, false⟩ := by
      simp [Hp.setDefault, e, Call.lift]
    rw [hst]
    refine ⟨rfl, ⟨rfl, rfl, rfl, rfl⟩, rfl, rfl, ?_, hok.value, ?_⟩
    · have := FloatParam.Used.setDefault (some x) hu
      rw [e] at this
      exact this
    · intro v hv
      simp only [Hp.dflt, Option.map_some, Option.some.injEq] at hv
      exact ⟨x, hv.symm, hx⟩
  | int p =>
    obtain ⟨n, rfl, hn⟩ := hv
    have hi : p.Inv := IntParam.Used.inv hu
    have hr : (p.setDefault (some (n : ℝ))).raised = false := by
      have := (C56_int_set_default_partial hu (n : ℝ)).not
      rw [not_not, rnd_intCast] at this
      simpa using this.mpr hn
    refine ⟨hr, ⟨rfl, rfl, rfl, rfl⟩, rfl, ?_, ?_, hok.value, ?_⟩
    · simp only [Hp.setDefault, Call.lift, IntParam.setDefault, rnd_intCast]
      rfl
    · exact IntParam.Used.setDefault (some (n : ℝ)) hu
    · intro v hv
      simp only [Hp.setDefault, Call.lift, IntParam.setDefault, rnd_intCast] at hv
      have hv' : some (Val.num (n : ℝ)) = some v := hv
      simp only [Option.some.injEq] at hv'
      exact ⟨n, hv'.symm, hn⟩
  | cat p =>
    have hv' : v ∈ p.choices := hv
    have e : p.setDefault (some v) = ⟨{ p with
        dflt := some v, dfltIndex := CatParam.index p.choices v, hasPrior := true }, false⟩ := by
      simp [CatParam.setDefault, hv']
    have hst : (Hp.setDefault (.cat p) v) = ⟨.cat { p with
        dflt := some v, dfltIndex := CatParam.index p.choices v, hasPrior := true }, false⟩ := by
      simp [Hp.setDefault, e, Call.lift]
    rw [hst]
    refine ⟨rfl, rfl, rfl, rfl, ?_, hok.value, ?_⟩
    · have := CatParam.Used.setDefault (some v) hu
      rw [e] at this
      exact this
    · intro w hw
      simp only [Hp.dflt, Option.some.injEq] at hw
      subst hw
      exact hv
  | const p => exact absurd trivial hc

theorem setConfidence_ok {h : Hp} (hok : h.Ok) (s : ℝ × ℕ) :
    (h.setConfidence (some s)).raised = false ∧ h.SameRange (h.setConfidence (some s)).st ∧
      (h.setConfidence (some s)).st.value = h.value ∧
      (h.setConfidence (some s)).st.dflt = h.dflt ∧ (h.setConfidence (some s)).st.Ok := by
  have hu := hok.used
  cases h with
  | float p =>
    refine ⟨rfl, ⟨rfl, rfl, rfl, rfl⟩, rfl, rfl, ?_, hok.value, hok.dflt⟩
    exact FloatParam.Used.setConfidence (some s.1) hu
  | int p =>
    refine ⟨rfl, ⟨rfl, rfl, rfl, rfl⟩, rfl, rfl, ?_, hok.value, hok.dflt⟩
    exact IntParam.Used.setConfidence (some s.1) hu
  | cat p =>
    refine ⟨rfl, rfl, rfl, rfl, ?_, hok.value, hok.dflt⟩
    exact CatParam.Used.setConfidence (some s.2) hu
  | const p => exact ⟨rfl, rfl, rfl, rfl, hok⟩

/-- Setting an illegal value raises. -/
theorem setValue_raises {h : Hp} {v : Val} (hv : ¬ h.Accepts v)
    (hint : ∀ p x, h = .int p → v = .num x → ¬ ((p.lower : ℝ) ≤ x ∧ x ≤ (p.upper : ℝ))) :
    (h.setValue v).raised = true := by
  cases h with
  | float p =>
    cases v with
    | num x =>
      have : ¬ (p.lower ≤ x ∧ x ≤ p.upper) := fun h => hv ⟨x, rfl, h⟩
      simp only [Hp.setValue, Call.lift]
      exact (C34_float_set_value p x).1.mpr this
    | str s => rfl
  | int p =>
    cases v with
    | num x =>
      have := hint p x rfl rfl
      simp only [Hp.setValue, Call.lift, IntParam.setValue]
      rw [if_pos this]
    | str s => rfl
  | cat p =>
    simp only [Hp.setValue, Call.lift]
    exact (C34_cat_set_value_partial p v).1.mpr hv
  | const p =>
    simp only [Hp.setValue, Call.lift]
    exact (C34_const_set_value p (some v)).2.mpr (fun h => hv (by simpa [Accepts] using h))

/-- A parameter in order can be copied, and the copy has the same declaration and value. -/
theorem clone_ok {h : Hp} (hok : h.Ok) :
    ∃ q, h.clone = some q ∧ h.SameDecl q ∧ q.value = h.value ∧ q.Ok := by
  have hu := hok.used
  have key : ∀ q : Hp, h.SameDecl q → q.value = h.value → (match q with
      | float p => p.Used
      | int p => p.Used
      | cat p => p.Used
      | const p => p.dflt = p.value) → q.Ok := by
    intro q hd hv hqu
    refine ⟨hqu, ?_, ?_⟩
    · intro v h'
      rw [hv] at h'
      exact (hd.accepts v).mp (hok.value v h')
    · intro v h'
      rw [hd.dflt] at h'
      exact (hd.accepts v).mp (hok.dflt v h')
  cases h with
  | float p =>
    obtain ⟨q, hq, e1, e2, e3, e4, e5, _, e7, _⟩ := C58_float_clone_partial (p := p) hu
    refine ⟨.float q, by simp [Hp.clone, hq], ⟨e1, e2, e3, e4, e5⟩, by simp [Hp.value, e7], ?_⟩
    exact key _ ⟨e1, e2, e3, e4, e5⟩ (by simp [Hp.value, e7]) (FloatParam.clone_used hq)
  | int p =>
    obtain ⟨q, hq⟩ := IntParam.clone_total (IntParam.Used.inv hu)
      (by
        intro x hx
        obtain ⟨n, hn, hb⟩ := hok.dflt (.num x) (by simp [Hp.dflt, hx])
        simp only [Val.num.injEq, Int.cast_inj] at hn
        subst hn; exact hb)
      (by
        intro x hx
        obtain ⟨n, hn, hb⟩ := hok.value (.num x) (by simp [Hp.value, hx])
        simp only [Val.num.injEq, Int.cast_inj] at hn
        subst hn; exact hb)
    obtain ⟨e1, e2, e3, e4, e5, e6⟩ := C58_int_clone_partial hq
    refine ⟨.int q, by simp [Hp.clone, hq], ⟨e1, e2, e5, e6, e4⟩, by simp [Hp.value, e3], ?_⟩
    exact key _ ⟨e1, e2, e5, e6, e4⟩ (by simp [Hp.value, e3]) (IntParam.clone_used hq)
  | cat p =>
    obtain ⟨q, hq, e1, e2, e3, _⟩ := C58_cat_clone_partial (p := p) hu (fun v hv => hok.value v hv)
    refine ⟨.cat q, by simp [Hp.clone, hq], ⟨e1, e3⟩, e2, ?_⟩
    exact key _ ⟨e1, e3⟩ e2 (CatParam.clone_used hq)
  | const p =>
    have hu' : p.dflt = p.value := hu
    refine ⟨.const ⟨p.value, p.value⟩, rfl, ⟨rfl, hu'.symm⟩, rfl, ?_⟩
    exact key _ ⟨rfl, hu'.symm⟩ rfl rfl

/-- A sampled copy has the same declaration and holds a legal value. -/
theorem sample_ok {h q : Hp} (hok : h.Ok) {b : Bool} {d : Draw} (hq : h.sample b d = some q) :
    h.SameDecl q ∧ q.Ok ∧ ∃ v, q.value = some v ∧ h.Accepts v := by
  have hu := hok.used
  have fin : ∀ (r : Hp) (v : Val), h.clone = some r → h.Accepts v → q = (r.setValue v).st →
      h.SameDecl q ∧ q.Ok ∧ ∃ v, q.value = some v ∧ h.Accepts v := by
    intro r v hr hv he
    obtain ⟨r', hr', h1, h2, h3⟩ := clone_ok hok
    rw [hr] at hr'
    simp only [Option.some.injEq] at hr'
    subst hr'
    obtain ⟨_, s2, s3, s4⟩ := setValue_ok h3 ((h1.accepts v).mp hv)
    rw [he]
    exact ⟨h1.trans s3, s4, v, s2, hv⟩
  cases h with
  | float p =>
    simp only [Hp.sample, Option.map_eq_some_iff] at hq
    obtain ⟨a, ha, rfl⟩ := hq
    unfold FloatParam.sample at ha
    rw [Option.bind_eq_bind, Option.bind_eq_some_iff] at ha
    obtain ⟨r, hr, ha⟩ := ha
    simp only at ha
    split_ifs at ha
    simp only [Option.pure_def, Option.some.injEq] at ha
    have hm := (FloatParam.Used.inv hu : p.Inv).sampleValue_mem b d.uniform d.normal
    exact fin (.float r) (.num (p.sampleValue b d.uniform d.normal)) (by simp [Hp.clone, hr])
      ⟨_, rfl, hm⟩ (by simp [Hp.setValue, Call.lift, ← ha])
  | int p =>
    simp only [Hp.sample, Option.map_eq_some_iff] at hq
    obtain ⟨a, ha, rfl⟩ := hq
    unfold IntParam.sample at ha
    rw [Option.bind_eq_bind, Option.bind_eq_some_iff] at ha
    obtain ⟨r, hr, ha⟩ := ha
    simp only at ha
    split_ifs at ha
    simp only [Option.pure_def, Option.some.injEq] at ha
    have hi : p.Inv := IntParam.Used.inv hu
    have hm := hi.rnd_mem (hi.finv.sampleValue_mem b d.uniform d.normal)
    exact fin (.int r) (.num (p.sampleValue b d.uniform d.normal : ℝ)) (by simp [Hp.clone, hr])
      ⟨_, rfl, hm⟩ (by simp [Hp.setValue, Call.lift, ← ha])
  | cat p =>
    simp only [Hp.sample, Option.map_eq_some_iff] at hq
    obtain ⟨a, ha, rfl⟩ := hq
    unfold CatParam.sample at ha
    simp only [Option.bind_eq_bind] at ha
    rw [Option.bind_eq_some_iff] at ha
    obtain ⟨v, hv, ha⟩ := ha
    rw [Option.bind_eq_some_iff] at ha
    obtain ⟨r, hr, ha⟩ := ha
    split_ifs at ha
    simp only [Option.pure_def, Option.some.injEq] at ha
    exact fin (.cat r) v (by simp [Hp.clone, hr]) (List.mem_of_getElem? hv)
      (by simp [Hp.setValue, Call.lift, ← ha])
  | const p =>
    simp only [Hp.sample, Option.some.injEq] at hq
    refine fin (.const ⟨p.value, p.value⟩) p.value rfl rfl ?_
    rw [← hq]
    simp [Hp.setValue, ConstParam.setValue, Call.lift]

theorem sample_total {h : Hp} (hok : h.Ok) (b : Bool) {d : Draw} (hd : h.Drawable d) :
    ∃ q, h.sample b d = some q := by
  have hu := hok.used
  cases h with
  | float p =>
    obtain ⟨q, hq, _⟩ := C33_float_sample (p := p) hu b d.uniform d.normal
    exact ⟨.float q, by simp [Hp.sample, hq]⟩
  | int p =>
    obtain ⟨q, hq⟩ := C33_int_sample_total (p := p) hu
      (by
        intro x hx
        obtain ⟨n, hn, hb⟩ := hok.dflt (.num x) (by simp [Hp.dflt, hx])
        simp only [Val.num.injEq, Int.cast_inj] at hn
        subst hn; exact hb)
      (by
        intro x hx
        obtain ⟨n, hn, hb⟩ := hok.value (.num x) (by simp [Hp.value, hx])
        simp only [Val.num.injEq, Int.cast_inj] at hn
        subst hn; exact hb) b d.uniform d.normal
    exact ⟨.int q, by simp [Hp.sample, hq]⟩
  | cat p =>
    obtain ⟨q, hq, _⟩ := C33_cat_sample_total (p := p) hu (fun v hv => hok.value v hv) d.index hd
    exact ⟨.cat q, by simp [Hp.sample, hq]⟩
  | const p => exact ⟨_, rfl⟩

/-- Loading a legal value succeeds and stores it. -/
theorem loadFrom_ok {h : Hp} (hok : h.Ok) {v : Val} (hv : h.Accepts v) :
    (h.loadFrom v).raised = false ∧ (h.loadFrom v).st.value = some v ∧
      h.SameDecl (h.loadFrom v).st ∧ (h.loadFrom v).st.Ok := by
  cases h with
  | int p =>
    obtain ⟨n, rfl, hn⟩ := hv
    have hst : (Hp.loadFrom (.int p) (.num n)) = ⟨.int { p with value := some n }, false⟩ := by
      simp [Hp.loadFrom, IntParam.loadFrom, Call.lift]
    rw [hst]
    refine ⟨rfl, rfl, by simp [SameDecl], ?_, ?_, ?_⟩
    · have := IntParam.Used.loadFrom (n : ℝ) hok.used
      simpa [IntParam.loadFrom] using this
    · intro v hv
      have hv' : some (Val.num (n : ℝ)) = some v := hv
      simp only [Option.some.injEq] at hv'
      exact ⟨n, hv'.symm, hn⟩
    · exact hok.dflt
  | float p => exact setValue_ok hok hv
  | cat p => exact setValue_ok hok hv
  | const p => exact setValue_ok hok hv

/-- A mutated parameter has the same declaration and a legal value other than the old one. -/
theorem mutate_ok {h q : Hp} (hok : h.Ok) {ns : List ℝ} {i : ℕ} (hq : h.mutate ns i = some q) :
    h.SameDecl q ∧ q.Ok ∧ q.value ≠ h.value ∧ h.isFidelity = false ∧
      ∃ v, q.value = some v ∧ h.Accepts v := by
  have hu := hok.used
  have fin : ∀ (r : Hp) (v : Val), h.clone = some r → h.Accepts v → q = (r.setValue v).st →
      h.SameDecl q ∧ q.Ok ∧ ∃ v, q.value = some v ∧ h.Accepts v := by
    intro r v hr hv he
    obtain ⟨r', hr', h1, h2, h3⟩ := clone_ok hok
    rw [hr] at hr'
    simp only [Option.some.injEq] at hr'
    subst hr'
    obtain ⟨_, s2, s3, s4⟩ := setValue_ok h3 ((h1.accepts v).mp hv)
    rw [he]
    exact ⟨h1.trans s3, s4, v, s2, hv⟩
  cases h with
  | float p =>
    simp only [Hp.mutate, Option.map_eq_some_iff] at hq
    obtain ⟨a, ha, rfl⟩ := hq
    obtain ⟨m1, m2, m3⟩ := C33_float_mutate (p := p) hu none .localSearch ns a ha
    unfold FloatParam.mutate at ha
    split_ifs at ha
    rw [Option.bind_eq_bind, Option.bind_eq_some_iff] at ha
    obtain ⟨c, hc, ha⟩ := ha
    split_ifs at ha
    simp only [Option.pure_def, Option.some.injEq] at ha
    subst ha
    simp only [FloatParam.mutant] at hc
    split_ifs at hc
    rw [Option.bind_eq_some_iff] at hc
    obtain ⟨l, hl, hc⟩ := hc
    obtain ⟨r, v, hr, hnr, he⟩ := FloatParam.neighbours_form 1 ns l hl c (List.mem_of_mem_head? hc)
    have hsv : c.value = some v := by rw [he]; exact (C34_float_set_value r v).2.2 hnr
    have hb := m2 v hsv
    obtain ⟨f1, f2, f3⟩ := fin (.float r) (.num v) (by simp [Hp.clone, hr]) ⟨v, rfl, hb⟩
      (by simp [Hp.setValue, Call.lift, ← he])
    refine ⟨f1, f2, ?_, m1, f3⟩
    intro hc'
    simp only [Hp.value] at hc'
    apply m3
    simp only [Option.getD_none]
    rw [hsv] at hc' ⊢
    cases hpv : p.value with
    | none => rw [hpv] at hc'; simp at hc'
    | some w => rw [hpv] at hc'; simpa using hc'
  | int p =>
    simp only [Hp.mutate, Option.map_eq_some_iff] at hq
    obtain ⟨a, ha, rfl⟩ := hq
    obtain ⟨m1, m2, m3⟩ := C33_int_mutate (p := p) hu none .localSearch ns a ha
    unfold IntParam.mutate at ha
    split_ifs at ha
    rw [Option.bind_eq_bind, Option.bind_eq_some_iff] at ha
    obtain ⟨c, hc, ha⟩ := ha
    split_ifs at ha
    simp only [Option.pure_def, Option.some.injEq] at ha
    subst ha
    simp only [IntParam.mutant] at hc
    split_ifs at hc
    rw [Option.bind_eq_some_iff] at hc
    obtain ⟨l, hl, hc⟩ := hc
    obtain ⟨r, x, hr, hnr, he⟩ := IntParam.neighbours_form 1 ns l hl c (List.mem_of_mem_head? hc)
    have hru := IntParam.clone_used hr
    have hx : (r.lower : ℝ) ≤ x ∧ x ≤ (r.upper : ℝ) := by
      by_contra hcon
      have := (C34_int_set_value hru x).1.mpr hcon
      rw [hnr] at this; simp at this
    have hok' := hru.inv.setValue_ok hx
    have hb : (r.lower : ℝ) ≤ (rnd x : ℝ) ∧ (rnd x : ℝ) ≤ (r.upper : ℝ) :=
      ⟨by exact_mod_cast hok'.2.1, by exact_mod_cast hok'.2.2⟩
    have hok'' := hru.inv.setValue_ok hb
    have hsame : r.setValue (some x) = r.setValue (some (rnd x : ℝ)) := by
      rw [hok'.1, hok''.1]; simp
    have hsv : c.value = some (rnd x) := by rw [he, hok'.1]
    have hb2 := m2 _ hsv
    obtain ⟨f1, f2, f3⟩ := fin (.int r) (.num (rnd x : ℝ)) (by simp [Hp.clone, hr])
      ⟨rnd x, rfl, hb2⟩ (by simp [Hp.setValue, Call.lift, ← hsame, ← he])
    refine ⟨f1, f2, ?_, m1, f3⟩
    intro hc'
    simp only [Hp.value] at hc'
    apply m3
    simp only [Option.getD_none]
    rw [hsv] at hc' ⊢
    cases hpv : p.value with
    | none => rw [hpv] at hc'; simp at hc'
    | some w => rw [hpv] at hc'; simpa using hc'
  | cat p =>
    simp only [Hp.mutate, Option.map_eq_some_iff] at hq
    obtain ⟨a, ha, rfl⟩ := hq
    obtain ⟨⟨v, hv, hvm⟩, m3⟩ := C33_cat_mutate (p := p) none .localSearch i a ha
    simp only [reduceCtorEq, if_false] at hvm
    unfold CatParam.mutate at ha
    rw [Option.bind_eq_bind, Option.bind_eq_some_iff] at ha
    obtain ⟨c, hc, ha⟩ := ha
    split_ifs at ha
    simp only [Option.pure_def, Option.some.injEq] at ha
    subst ha
    simp only [CatParam.mutant] at hc
    rw [Option.bind_eq_some_iff] at hc
    obtain ⟨l, hl, hc⟩ := hc
    unfold CatParam.neighbours at hl
    split_ifs at hl
    obtain ⟨d, _, hd⟩ := (mapM_some hl).2 c (List.mem_of_mem_head? hc)
    unfold CatParam.neighbour at hd
    simp only [Option.bind_eq_bind] at hd
    rw [Option.bind_eq_some_iff] at hd
    obtain ⟨w, hw, hd⟩ := hd
    rw [Option.bind_eq_some_iff] at hd
    obtain ⟨r, hr, hd⟩ := hd
    split_ifs at hd
    simp only [Option.pure_def, Option.some.injEq] at hd
    rw [Option.bind_eq_some_iff] at hw
    obtain ⟨j, _, hw⟩ := hw
    obtain ⟨f1, f2, f3⟩ := fin (.cat r) w (by simp [Hp.clone, hr]) (List.mem_of_getElem? hw)
      (by simp [Hp.setValue, Call.lift, ← hd])
    exact ⟨f1, f2, m3, rfl, f3⟩
  | const p => simp [Hp.mutate] at hq

/-- The children of a crossover between two parameters of the same declaration. -/
theorem crossover_ok {h o a b : Hp} (hok : h.Ok) (hoo : o.Ok) (hd : h.SameDecl o) {ns : List ℝ}
    (hq : h.crossover ns o = some (a, b)) :
    (h.SameDecl a ∧ a.Ok ∧ ∃ v, a.value = some v ∧ h.Accepts v) ∧
      (h.SameDecl b ∧ b.Ok ∧ ∃ v, b.value = some v ∧ h.Accepts v) := by
  have fin : ∀ (g : Hp), g.Ok → h.SameDecl g → ∀ (q r : Hp) (v : Val), g.clone = some r →
      h.Accepts v → q = (r.setValue v).st →
      h.SameDecl q ∧ q.Ok ∧ ∃ v, q.value = some v ∧ h.Accepts v := by
    intro g hg hgd q r v hr hv he
    obtain ⟨r', hr', h1, h2, h3⟩ := clone_ok hg
    rw [hr] at hr'
    simp only [Option.some.injEq] at hr'
    subst hr'
    have hd' := hgd.trans h1
    obtain ⟨_, s2, s3, s4⟩ := setValue_ok h3 ((hd'.accepts v).mp hv)
    rw [he]
    exact ⟨hd'.trans s3, s4, v, s2, hv⟩
  cases h with
  | float p =>
    cases o with
    | float o =>
      simp only [Hp.crossover, Option.map_eq_some_iff, Prod.mk.injEq] at hq
      obtain ⟨⟨c1, c2⟩, hc, rfl, rfl⟩ := hq
      obtain ⟨⟨v1, hv1, hb1⟩, ⟨v2, hv2, hb2⟩⟩ := C33_float_crossover hok.used o none ns c1 c2 hc
      unfold FloatParam.crossover at hc
      split_ifs at hc
      simp only [Option.bind_eq_bind] at hc
      rw [Option.bind_eq_some_iff] at hc
      obtain ⟨w1, _, hc⟩ := hc
      rw [Option.bind_eq_some_iff] at hc
      obtain ⟨w2, _, hc⟩ := hc
      rw [Option.bind_eq_some_iff] at hc
      obtain ⟨q, hq, hc⟩ := hc
      split_ifs at hc with hra
      rw [Option.bind_eq_some_iff] at hc
      obtain ⟨l, hl, hc⟩ := hc
      have hform := FloatParam.neighbours_form 2 ns l hl
      have hmid : Hp.SameDecl (.float p) (.float (q.setValue (some ((w1 + w2) / 2))).st) ∧
          Hp.Ok (.float (q.setValue (some ((w1 + w2) / 2))).st) := by
        have hx : q.lower ≤ (w1 + w2) / 2 ∧ (w1 + w2) / 2 ≤ q.upper := by
          by_contra hcon
          exact hra ((C34_float_set_value q _).1.mpr hcon)
        obtain ⟨r', hr', h1, h2, h3⟩ := clone_ok hok
        simp only [Hp.clone, hq, Option.map_some, Option.some.injEq] at hr'
        subst hr'
        obtain ⟨_, s2, s3, s4⟩ := setValue_ok h3 (v := .num ((w1 + w2) / 2)) ⟨_, rfl, hx⟩
        exact ⟨h1.trans s3, s4⟩
      split at hc
      · simp only [Option.pure_def, Option.some.injEq, Prod.mk.injEq] at hc
        obtain ⟨hc1, hc2⟩ := hc
        obtain ⟨r1, x1, hr1, hn1, he1⟩ := hform c1 (by rw [← hc1]; simp)
        obtain ⟨r2, x2, hr2, hn2, he2⟩ := hform c2 (by rw [← hc2]; simp)
        have ex1 : x1 = v1 := by
          have := (C34_float_set_value r1 x1).2.2 hn1
          rw [← he1, hv1] at this; simpa using this.symm
        have ex2 : x2 = v2 := by
          have := (C34_float_set_value r2 x2).2.2 hn2
          rw [← he2, hv2] at this; simpa using this.symm
        subst ex1 ex2
        exact ⟨fin _ hmid.2 hmid.1 _ (.float r1) (.num x1) (by simp [Hp.clone, hr1]) ⟨_, rfl, hb1⟩
            (by simp [Hp.setValue, Call.lift, ← he1]),
          fin _ hmid.2 hmid.1 _ (.float r2) (.num x2) (by simp [Hp.clone, hr2]) ⟨_, rfl, hb2⟩
            (by simp [Hp.setValue, Call.lift, ← he2])⟩
      · simp at hc
    | _ => simp [Hp.crossover] at hq
  | int p =>
    cases o with
    | int o =>
      simp only [Hp.crossover, Option.map_eq_some_iff, Prod.mk.injEq] at hq
      obtain ⟨⟨c1, c2⟩, hc, rfl, rfl⟩ := hq
      obtain ⟨⟨v1, hv1, hb1⟩, ⟨v2, hv2, hb2⟩⟩ := C33_int_crossover o none ns c1 c2 hc
      unfold IntParam.crossover at hc
      split_ifs at hc
      simp only [Option.bind_eq_bind] at hc
      rw [Option.bind_eq_some_iff] at hc
      obtain ⟨w1, _, hc⟩ := hc
      rw [Option.bind_eq_some_iff] at hc
      obtain ⟨w2, _, hc⟩ := hc
      rw [Option.bind_eq_some_iff] at hc
      obtain ⟨q, hq, hc⟩ := hc
      split_ifs at hc with hra
      rw [Option.bind_eq_some_iff] at hc
      obtain ⟨l, hl, hc⟩ := hc
      have hform := IntParam.neighbours_form 2 ns l hl
      have hqu := IntParam.clone_used hq
      -- an integer parameter with a value set by a real number, set by the rounded one instead
      have hset : ∀ (r : IntParam), r.Used → ∀ x : ℝ, (r.setValue (some x)).raised = false →
          r.setValue (some x) = r.setValue (some (rnd x : ℝ)) ∧
          (r.setValue (some x)).st.value = some (rnd x) ∧ r.lower ≤ rnd x ∧ rnd x ≤ r.upper := by
        intro r hru x hn
        have hx : (r.lower : ℝ) ≤ x ∧ x ≤ (r.upper : ℝ) := by
          by_contra hcon
          have := (C34_int_set_value hru x).1.mpr hcon
          rw [hn] at this; simp at this
        have hok' := hru.inv.setValue_ok hx
        have hb : (r.lower : ℝ) ≤ (rnd x : ℝ) ∧ (rnd x : ℝ) ≤ (r.upper : ℝ) :=
          ⟨by exact_mod_cast hok'.2.1, by exact_mod_cast hok'.2.2⟩
        have hok'' := hru.inv.setValue_ok hb
        refine ⟨by rw [hok'.1, hok''.1]; simp, by rw [hok'.1], hok'.2⟩
      have hmid : Hp.SameDecl (.int p) (.int (q.setValue (some (((w1 : ℝ) + w2) / 2))).st) ∧
          Hp.Ok (.int (q.setValue (some (((w1 : ℝ) + w2) / 2))).st) := by
        obtain ⟨e1, _, e3⟩ := hset q hqu (((w1 : ℝ) + w2) / 2) (by simpa using hra)
        obtain ⟨r', hr', h1, h2, h3⟩ := clone_ok hok
        simp only [Hp.clone, hq, Option.map_some, Option.some.injEq] at hr'
        subst hr'
        obtain ⟨_, s2, s3, s4⟩ := setValue_ok h3 (v := .num (rnd (((w1 : ℝ) + w2) / 2) : ℝ))
          ⟨_, rfl, e3⟩
        rw [e1]
        exact ⟨h1.trans s3, s4⟩
      split at hc
      · simp only [Option.pure_def, Option.some.injEq, Prod.mk.injEq] at hc
        obtain ⟨hc1, hc2⟩ := hc
        obtain ⟨r1, x1, hr1, hn1, he1⟩ := hform c1 (by rw [← hc1]; simp)
        obtain ⟨r2, x2, hr2, hn2, he2⟩ := hform c2 (by rw [← hc2]; simp)
        obtain ⟨g1, g2, _⟩ := hset r1 (IntParam.clone_used hr1) x1 hn1
        obtain ⟨k1, k2, _⟩ := hset r2 (IntParam.clone_used hr2) x2 hn2
        have ex1 : rnd x1 = v1 := by rw [← he1, hv1] at g2; simpa using g2.symm
        have ex2 : rnd x2 = v2 := by rw [← he2, hv2] at k2; simpa using k2.symm
        exact ⟨fin _ hmid.2 hmid.1 _ (.int r1) (.num (rnd x1 : ℝ)) (by simp [Hp.clone, hr1])
            ⟨_, rfl, by rw [ex1]; exact hb1⟩ (by simp [Hp.setValue, Call.lift, ← g1, ← he1]),
          fin _ hmid.2 hmid.1 _ (.int r2) (.num (rnd x2 : ℝ)) (by simp [Hp.clone, hr2])
            ⟨_, rfl, by rw [ex2]; exact hb2⟩ (by simp [Hp.setValue, Call.lift, ← k1, ← he2])⟩
      · simp at hc
    | _ => simp [Hp.crossover] at hq
  | cat p =>
    cases o with
    | cat o =>
      simp only [Hp.crossover, Option.map_eq_some_iff, Prod.mk.injEq] at hq
      obtain ⟨⟨c1, c2⟩, hc, rfl, rfl⟩ := hq
      unfold CatParam.crossover at hc
      simp only [Option.bind_eq_bind, Option.getD_none] at hc
      rw [Option.bind_eq_some_iff] at hc
      obtain ⟨v1, hv1, hc⟩ := hc
      rw [Option.bind_eq_some_iff] at hc
      obtain ⟨v2, hv2, hc⟩ := hc
      rw [Option.bind_eq_some_iff] at hc
      obtain ⟨q1, hq1, hc⟩ := hc
      split_ifs at hc
      rw [Option.bind_eq_some_iff] at hc
      obtain ⟨q2, hq2, hc⟩ := hc
      split_ifs at hc
      simp only [Option.pure_def, Option.some.injEq, Prod.mk.injEq] at hc
      obtain ⟨hc1, hc2⟩ := hc
      exact ⟨fin _ hoo hd _ (.cat q1) v2 (by simp [Hp.clone, hq1]) (hok.value v2 hv2)
          (by simp [Hp.setValue, Call.lift, ← hc1]),
        fin _ hok (SameDecl.refl _) _ (.cat q2) v1 (by simp [Hp.clone, hq2])
          ((hd.accepts v1).mpr (hoo.value v1 hv1)) (by simp [Hp.setValue, Call.lift, ← hc2])⟩
    | _ => simp [Hp.crossover] at hq
  | const p => simp [Hp.crossover] at hq

/-- The categorical children have the values the parents had, in the same order. -/
theorem crossover_cat {h o a b : Hp} (hcat : h.IsCat) {ns : List ℝ}
    (hq : h.crossover ns o = some (a, b)) : a.value = h.value ∧ b.value = o.value := by
  cases h with
  | cat p =>
    cases o with
    | cat o =>
      simp only [Hp.crossover, Option.map_eq_some_iff, Prod.mk.injEq] at hq
      obtain ⟨⟨c1, c2⟩, hc, rfl, rfl⟩ := hq
      unfold CatParam.crossover at hc
      simp only [Option.bind_eq_bind, Option.getD_none] at hc
      rw [Option.bind_eq_some_iff] at hc
      obtain ⟨v1, hv1, hc⟩ := hc
      rw [Option.bind_eq_some_iff] at hc
      obtain ⟨v2, hv2, hc⟩ := hc
      rw [Option.bind_eq_some_iff] at hc
      obtain ⟨q1, hq1, hc⟩ := hc
      split_ifs at hc
      rw [Option.bind_eq_some_iff] at hc
      obtain ⟨q2, hq2, hc⟩ := hc
      split_ifs at hc
      simp only [Option.pure_def, Option.some.injEq, Prod.mk.injEq] at hc
      obtain ⟨hc1, hc2⟩ := hc
      have hval : ∀ (q : CatParam Val) (v : Val), (q.setValue (some v)).st.value = some v := by
        intro q v
        unfold CatParam.setValue
        simp only
        split <;> rfl
      simp only [Hp.value]
      rw [← hc1, ← hc2, hval, hval, hv1, hv2]
      exact ⟨rfl, rfl⟩
    | _ => simp [Hp.crossover] at hq
  | _ => exact absurd hcat (by simp [IsCat])

theorem SameDecl.isCat {a b : Hp} (h : a.SameDecl b) : b.IsCat ↔ a.IsCat := by
  cases a <;> cases b <;> simp_all [SameDecl, IsCat]

end Hp

/-! ## Dictionaries -/

theorem mapM_forall₂ {α β : Type*} {f : α → Option β} :
    ∀ {l : List α} {m : List β}, l.mapM f = some m → List.Forall₂ (fun a b => f a = some b) l m
  | [], m, h => by simp at h; subst h; exact .nil
  | a :: l, m, h => by
    simp only [List.mapM_cons, Option.bind_eq_bind] at h
    rw [Option.bind_eq_some_iff] at h
    obtain ⟨b, hb, h⟩ := h
    rw [Option.bind_eq_some_iff] at h
    obtain ⟨bs, hbs, h⟩ := h
    simp only [Option.pure_def, Option.some.injEq] at h
    subst h
    exact .cons hb (mapM_forall₂ hbs)

theorem mapM_total {α β : Type*} {f : α → Option β} :
    ∀ {l : List α}, (∀ a ∈ l, ∃ b, f a = some b) → ∃ m, l.mapM f = some m
  | [], _ => ⟨[], by simp⟩
  | a :: l, h => by
    obtain ⟨b, hb⟩ := h a (by simp)
    obtain ⟨m, hm⟩ := mapM_total (l := l) (fun c hc => h c (by simp [hc]))
    exact ⟨b :: m, by simp [List.mapM_cons, hb, hm]⟩

theorem forall₂_mem_right {α β : Type*} {R : α → β → Prop} {l : List α} {m : List β}
    (h : List.Forall₂ R l m) : ∀ b ∈ m, ∃ a ∈ l, R a b := by
  induction h with
  | nil => simp
  | cons hab _ ih =>
    intro b hb
    rcases List.mem_cons.mp hb with rfl | hb
    · exact ⟨_, by simp, hab⟩
    · obtain ⟨a, ha, hr⟩ := ih b hb
      exact ⟨a, by simp [ha], hr⟩

theorem forall₂_mem_left {α β : Type*} {R : α → β → Prop} {l : List α} {m : List β}
    (h : List.Forall₂ R l m) : ∀ a ∈ l, ∃ b ∈ m, R a b := by
  induction h with
  | nil => simp
  | cons hab _ ih =>
    intro b hb
    rcases List.mem_cons.mp hb with rfl | hb
    · exact ⟨_, by simp, hab⟩
    · obtain ⟨a, ha, hr⟩ := ih b hb
      exact ⟨a, by simp [ha], hr⟩

theorem forall₂_imp_mem {α β : Type*} {R S : α → β → Prop} {l : List α} {m : List β}
    (h : List.Forall₂ R l m) (hi : ∀ a ∈ l, ∀ b ∈ m, R a b → S a b) : List.Forall₂ S l m := by
  induction h with
  | nil => exact .nil
  | cons hab _ ih =>
    exact .cons (hi _ (by simp) _ (by simp) hab)
      (ih fun a ha b hb => hi a (by simp [ha]) b (by simp [hb]))

theorem forall₂_trans {α : Type*} {R S : α → α → Prop} {l m : List α}
    (h1 : List.Forall₂ R l m) : ∀ {n : List α}, List.Forall₂ S m n →
    List.Forall₂ (fun a c => ∃ b, R a b ∧ S b c) l n := by
  induction h1 with
  | nil => intro n h2; cases h2; exact .nil
  | cons hab _ ih =>
    intro n h2
    cases h2 with
    | cons hbc h2 => exact .cons ⟨_, hab, hbc⟩ (ih h2)

theorem forall₂_filterMap {α β γ : Type*} {f : β → Option γ} {S : α → γ → Prop} {l : List α}
    {m : List β} (h : List.Forall₂ (fun a b => ∃ c, f b = some c ∧ S a c) l m) :
    List.Forall₂ S l (m.filterMap f) := by
  induction h with
  | nil => exact .nil
  | cons hab _ ih =>
    obtain ⟨c, hc, hs⟩ := hab
    rw [List.filterMap_cons, hc]
    exact .cons hs ih

theorem forall₂_keys_eq {R : String × Hp → String × Hp → Prop} {s t : Dict Hp}
    (h : List.Forall₂ R s t) (hk : ∀ p q, R p q → q.1 = p.1) : t.keys = s.keys := by
  induction h with
  | nil => rfl
  | cons hab _ ih => simp only [Dict.keys, List.map_cons] at ih ⊢; rw [hk _ _ hab, ih]

/-- The parameter of the same name. -/
theorem forall₂_get? {R : String × Hp → String × Hp → Prop} {s t : Dict Hp}
    (h : List.Forall₂ R s t) (hk : ∀ p q, R p q → q.1 = p.1) {k : String} {a : Hp}
    (ha : s.get? k = some a) : ∃ b, t.get? k = some b ∧ R (k, a) (k, b) := by
  induction h with
  | nil => simp [Dict.get?] at ha
  | @cons p q s t hab _ ih =>
    have hpq := hk _ _ hab
    unfold Dict.get? at ha ⊢ ih
    rw [List.find?_cons] at ha ⊢
    by_cases hc : p.1 = k
    · simp only [hc, decide_true, Option.map_some, Option.some.injEq] at ha
      have hq : q.1 = k := by rw [hpq, hc]
      simp only [hq, decide_true, Option.map_some, Option.some.injEq, exists_eq_left']
      subst ha hc
      have : q = (p.1, q.2) := by rw [← hq]
      rw [this] at hab
      exact hab
    · have hq : ¬ q.1 = k := by rw [hpq]; exact hc
      simp only [hc, decide_false] at ha
      simp only [hq, decide_false]
      exact ih ha

theorem Dict.set_forall₂ {β : Type*} (s : Dict β) (k : String) (v : β) (h : k ∈ s.keys) :
    List.Forall₂ (fun p q => q.1 = p.1 ∧ (p.1 = k → q.2 = v) ∧ (p.1 ≠ k → q.2 = p.2)) s
      (s.set k v) := by
  unfold Dict.set
  rw [if_pos h]
  rw [List.forall₂_map_right_iff, List.forall₂_same]
  intro p _
  by_cases hp : p.1 = k
  · simp [hp]
  · simp [hp]

theorem Dict.get?_mem_keys {β : Type*} {s : Dict β} {k : String} {v : β} (h : s.get? k = some v) :
    k ∈ s.keys := List.mem_map_of_mem (f := Prod.fst) (Dict.mem_of_get? h)

namespace SearchSpace

theorem InOrder.nodup {s : SearchSpace} (h : s.InOrder) : (Dict.keys s).Nodup := by
  obtain ⟨hps, hn, _, hm⟩ := h
  unfold make at hm
  simp only at hm
  split_ifs at hm
  simp only [Option.some.injEq] at hm
  rw [← hm]
  exact Dict.sorted_keys_nodup hn

theorem InOrder.ok {s : SearchSpace} (h : s.InOrder) : ∀ p ∈ s, p.2.Ok := by
  obtain ⟨hps, hn, ho, hm⟩ := h
  unfold make at hm
  simp only at hm
  split_ifs at hm
  simp only [Option.some.injEq] at hm
  rw [← hm]
  intro p hp
  exact ho p ((Dict.sorted_perm hps).mem_iff.mp hp)

theorem InOrder.pairwise {s : SearchSpace} (h : s.InOrder) : s.Pairwise (fun a b => a.1 ≤ b.1) := by
  obtain ⟨hps, hn, ho, hm⟩ := h
  unfold make at hm
  simp only at hm
  split_ifs at hm
  simp only [Option.some.injEq] at hm
  rw [← hm]
  exact Dict.sorted_pairwise hps

theorem InOrder.one {s : SearchSpace} (h : s.InOrder) :
    (s.filter fun p => p.2.isFidelity).length ≤ 1 := by
  obtain ⟨hps, hn, ho, hm⟩ := h
  unfold make at hm
  simp only at hm
  split_ifs at hm with hc
  simp only [Option.some.injEq] at hm
  rw [← hm]
  omega

/-- The constructor accepts parameters of the same names and declarations, and keeps their
order. -/
theorem InOrder.make {s : SearchSpace} (h : s.InOrder) {t : Dict Hp}
    (ht : List.Forall₂ (fun p q : String × Hp => q.1 = p.1 ∧ p.2.SameDecl q.2) s t) :
    SearchSpace.make t = some t := by
  have hpw : t.Pairwise (fun a b => a.1 ≤ b.1) := by
    have hk := forall₂_keys_eq ht (fun p q h => h.1)
    have h1 : (Dict.keys s).Pairwise (· ≤ ·) := by
      unfold Dict.keys
      rw [List.pairwise_map]
      exact h.pairwise
    rw [← hk] at h1
    unfold Dict.keys at h1
    rwa [List.pairwise_map] at h1
  have hs : Dict.sorted t = t := by
    unfold Dict.sorted
    apply List.mergeSort_of_pairwise
    simpa using hpw
  have hf : (t.filter fun p => p.2.isFidelity).length = (s.filter fun p => p.2.isFidelity).length := by
    clear hpw hs h
    induction ht with
    | nil => rfl
    | cons hab _ ih =>
      simp only [List.filter_cons, hab.2.isFidelity]
      split_ifs <;> simp [ih]
  unfold SearchSpace.make
  simp only [hs, hf]
  rw [if_neg (by have := h.one; omega)]

theorem InOrder.of {s : SearchSpace} (h : s.InOrder) {t : Dict Hp}
    (ht : List.Forall₂ (fun p q : String × Hp => q.1 = p.1 ∧ p.2.SameDecl q.2) s t)
    (ho : ∀ q ∈ t, q.2.Ok) : InOrder t := by
  refine ⟨t, ?_, ho, h.make ht⟩
  rw [forall₂_keys_eq ht (fun p q h => h.1)]
  exact h.nodup

theorem Pointwise.decl {R : String → Hp → Hp → Prop} {s t : SearchSpace} (h : s.Pointwise R t) :
    List.Forall₂ (fun p q : String × Hp => q.1 = p.1 ∧ p.2.SameDecl q.2) s t :=
  List.Forall₂.imp (fun _ _ h => ⟨h.1, h.2.1⟩) h

/-- A copy of a space in order. -/
theorem clone_ok {s : SearchSpace} (h : s.InOrder) :
    ∃ c, s.clone = some c ∧ c.InOrder ∧ s.Pointwise (fun _ a b => b.value = a.value) c := by
  have ht : ∃ m, s.mapM (fun p : String × Hp => p.2.clone.map fun q => (p.1, q)) = some m := by
    apply mapM_total
    intro p hp
    obtain ⟨q, hq, _⟩ := Hp.clone_ok (h.ok p hp)
    exact ⟨(p.1, q), by simp [hq]⟩
  obtain ⟨m, hm⟩ := ht
  have hall : List.Forall₂ (fun p q : String × Hp => q.1 = p.1 ∧ p.2.SameDecl q.2 ∧
      q.2.value = p.2.value ∧ q.2.Ok) s m := by
    apply forall₂_imp_mem (mapM_forall₂ hm)
    intro p hp q _ hpq
    obtain ⟨q', hq', h1, h2, h3⟩ := Hp.clone_ok (h.ok p hp)
    simp only [hq', Option.map_some, Option.some.injEq] at hpq
    subst hpq
    exact ⟨rfl, h1, h2, h3⟩
  have hd : List.Forall₂ (fun p q : String × Hp => q.1 = p.1 ∧ p.2.SameDecl q.2) s m :=
    List.Forall₂.imp (fun _ _ h => ⟨h.1, h.2.1⟩) hall
  refine ⟨m, ?_, ?_, ?_⟩
  · unfold SearchSpace.clone
    simp [hm, h.make hd]
  · apply h.of hd
    intro q hq
    obtain ⟨p, _, hp⟩ := forall₂_mem_right hall q hq
    exact hp.2.2.2
  · exact List.Forall₂.imp (fun _ _ h => ⟨h.1, h.2.1, h.2.2.1⟩) hall

end SearchSpace

end Verif.Space
