import Verif.Space.PriorProps
import Verif.Space.CompareProps

/-!
# C107: how PriorBand scores a configuration

Properties of `compute_scores` (`neps/optimizers/multi_fidelity_prior/utils.py:132-150`).
-/

namespace Verif.Space

namespace Hp

/-! ## Specification -/

/-- The parameter with the confidence its constructor was given. -/
def fresh : Hp → Hp
  | float p => .float { p with score := p.choice }
  | int p => .int { p with score := p.choice }
  | cat p => .cat { p with score := p.choice }
  | const p => .const p

/-- How likely a value is around a center, if there is one; without a center the parameter does not
count, nor does a constant. -/
noncomputable def score (h : Hp) (center value : Option Val) : ℝ :=
  match center, value with
  | some c, some v => h.fresh.around c v
  | _, _ => 1

/-- Is it an integer on a log scale? -/
def IsLogInt : Hp → Prop
  | int p => p.log = true
  | _ => False

end Hp

/-- The likelihood of a configuration: the product over the parameters, each around its center. -/
noncomputable def SearchSpace.scoreOf (center : Hp → Option Val) (s config : SearchSpace) : ℝ :=
  ((s.zip config).map fun pq => pq.1.2.score (center pq.1.2) pq.2.2.value).prod

/-- The configurations have the parameters of the space, in the same ranges. -/
def SearchSpace.SameSpace (s config : SearchSpace) : Prop :=
  List.Forall₂ (fun p q : String × Hp => q.1 = p.1 ∧ p.2.SameRange q.2) s config

/-- Where the code centers the score with respect to the incumbent. -/
noncomputable def Hp.usedCenter (h : Hp) : Option Val :=
  match h with
  | .cat _ => h.dflt
  | .int p => if p.log then h.dflt else h.value
  | _ => h.value

/-! ## One parameter -/

namespace Hp

theorem around_float {p q : FloatParam} (h1 : q.lower = p.lower) (h2 : q.upper = p.upper)
    (h3 : q.log = p.log) (h4 : q.score = p.score) : (Hp.float q).around = (Hp.float p).around := by
  funext c v
  cases c <;> cases v <;> simp [around, std, h1, h2, h3, h4]

theorem around_int {p q : IntParam} (h1 : q.lower = p.lower) (h2 : q.upper = p.upper)
    (h3 : q.log = p.log) (h4 : q.score = p.score) : (Hp.int q).around = (Hp.int p).around := by
  funext c v
  cases c <;> cases v <;> simp [around, std, h1, h2, h3, h4]

/-- `x` is what the parameter contributes to `compute_prior`. -/
def Contrib (r : Hp) (x : ℝ) : Prop :=
  (r.hasPrior = false ∧ x = 1) ∨ (r.hasPrior = true ∧ r.computePrior = some x)

theorem contrib {r : Hp} (hok : r.Ok) (hs : r.Settled) (hc : r.Confident) {v : Val}
    (hv : r.value = some v) (f : Val → Val → ℝ) (hf : r.around = f)  :
    r.Contrib (match r.dflt with
      | some c => f c v
      | none => 1) := by
  subst hf
  cases hd : r.dflt with
  | none =>
    refine .inl ⟨?_, rfl⟩
    rw [hasPrior_eq hok]
    cases r <;> simp [counts, hd]
  | some c =>
    by_cases hn : r.IsConst
    · cases r with
      | const p => exact .inl ⟨rfl, rfl⟩
      | _ => simp [IsConst] at hn
    · refine .inr ⟨?_, computePrior_eq hok hs hc hn hd hv⟩
      rw [hasPrior_eq hok]
      cases r <;> simp_all [counts, IsConst]

theorem clone_fresh {h : Hp} (hok : h.Ok) (hdc : h.Declared) :
    ∃ q, h.clone = some q ∧ h.SameDecl q ∧ q.value = h.value ∧ q.Ok ∧ q.Settled ∧ q.Confident ∧
      q.around = h.fresh.around := by
  obtain ⟨q, hq, h1, h2, h3⟩ := clone_ok hok
  refine ⟨q, hq, h1, h2, h3, ?_⟩
  cases h with
  | float p =>
    have hi : p.Inv := FloatParam.Used.inv hok.used
    simp only [Hp.clone, hi.clone_eq, Option.map_some, Option.some.injEq] at hq
    subst hq
    exact ⟨trivial, hdc, rfl⟩
  | int p =>
    simp only [Hp.clone, Option.map_eq_some_iff] at hq
    obtain ⟨q, hq, rfl⟩ := hq
    have key : q.logDflt = IntParam.logOf p.log p.dflt ∧ q.score = p.choice := by
      unfold IntParam.clone at hq
      rw [Option.bind_eq_bind, Option.bind_eq_some_iff] at hq
      obtain ⟨r, hr, hq⟩ := hq
      have hr' : r.logDflt = IntParam.logOf p.log p.dflt ∧ r.score = p.choice := by
        unfold IntParam.make at hr
        simp only at hr
        split_ifs at hr
        rw [Option.bind_eq_bind, Option.bind_eq_some_iff] at hr
        obtain ⟨f, -, hr⟩ := hr
        simp only [Option.pure_def, Option.some.injEq] at hr
        subst hr
        refine ⟨?_, rfl⟩
        simp only [Option.map_map]
        congr 1
        cases p.dflt <;> simp
      cases hv : p.value with
      | none =>
        rw [hv] at hq
        simp only [Option.pure_def, Option.some.injEq] at hq
        subst hq
        exact hr'
      | some v =>
        rw [hv] at hq
        simp only at hq
        split_ifs at hq
        simp only [Option.pure_def, Option.some.injEq] at hq
        subst hq
        simp only [IntParam.setValue]
        split_ifs <;> exact hr'
    obtain ⟨e1, e2, e3, -, e5⟩ := h1
    refine ⟨?_, ?_, ?_⟩
    · show q.logDflt = IntParam.logOf q.log q.dflt
      rw [key.1, e3, e5]
    · show 0 < q.score
      rw [key.2]; exact hdc
    · funext c v
      cases c <;> cases v <;> simp [around, std, fresh, key.2, e1, e2, e3]
  | cat p =>
    simp only [Hp.clone, Option.map_eq_some_iff] at hq
    obtain ⟨q, hq, rfl⟩ := hq
    have key : q.valueIndex = q.value.bind (CatParam.index q.choices) ∧ q.score = p.choice := by
      unfold CatParam.clone at hq
      rw [Option.bind_eq_bind, Option.bind_eq_some_iff] at hq
      obtain ⟨r, hr, hq⟩ := hq
      obtain ⟨-, -, r3, r4, r5, -⟩ := CatParam.make_some hr
      cases hv : p.value with
      | none =>
        rw [hv] at hq
        simp only [Option.pure_def, Option.some.injEq] at hq
        subst hq
        exact ⟨by rw [r4, r5]; rfl, r3⟩
      | some v =>
        rw [hv] at hq
        simp only at hq
        split_ifs at hq with hra
        simp only [Option.pure_def, Option.some.injEq] at hq
        subst hq
        by_cases hm : v ∈ r.choices
        · obtain ⟨i, hi, e⟩ := CatParam.setValue_mem hm
          rw [e]
          exact ⟨hi.symm, r3⟩
        · rw [CatParam.setValue_not_mem hm] at hra
          exact absurd rfl hra
    obtain ⟨e1, -⟩ := h1
    refine ⟨key.1, ?_, ?_⟩
    · show 0 < q.score
      rw [key.2]; exact hdc
    · funext c v
      simp [around, fresh, key.2, e1]
  | const p =>
    simp only [Hp.clone, Option.some.injEq] at hq
    subst hq
    exact ⟨trivial, trivial, rfl⟩

/-- Setting a value from the dictionary. -/
theorem setHp_value {h : Hp} (hok : h.Ok) {v : Val} (hv : h.Accepts v) :
    (SearchSpace.setHp SearchSpace.valuesOnly h v) = h.setValue v := by
  cases h with
  | const p =>
    have : v = p.value := hv
    subst this
    simp [SearchSpace.setHp, SearchSpace.valuesOnly, Hp.setValue, ConstParam.setValue, Call.lift]
  | _ => simp [SearchSpace.setHp, SearchSpace.valuesOnly, Call.andThen]

theorem setValue_more {h : Hp} (hok : h.Ok) {v : Val} (hv : h.Accepts v) :
    (h.Settled → (h.setValue v).st.Settled) ∧ (h.Confident → (h.setValue v).st.Confident) ∧
      (h.setValue v).st.around = h.around := by
  cases h with
  | float p =>
    obtain ⟨x, rfl, hx⟩ := hv
    have e : p.setValue (some x) =
        ⟨{ p with value := some x, normalized := some (p.valueToNormalized x) }, false⟩ := by
      simp [FloatParam.setValue, hx]
    simp only [Hp.setValue, Call.lift, e]
    exact ⟨fun _ => trivial, id, around_float rfl rfl rfl rfl⟩
  | int p =>
    obtain ⟨n, rfl, hn⟩ := hv
    have hi : p.Inv := IntParam.Used.inv hok.used
    have e := (hi.setValue_ok (v := (n : ℝ)) ⟨by exact_mod_cast hn.1, by exact_mod_cast hn.2⟩).1
    simp only [Hp.setValue, Call.lift, e]
    exact ⟨id, id, around_int rfl rfl rfl rfl⟩
  | cat p =>
    obtain ⟨i, hi, e⟩ := CatParam.setValue_mem (p := p) hv
    simp only [Hp.setValue, Call.lift, e]
    exact ⟨fun _ => hi.symm, id, rfl⟩
  | const p => exact ⟨fun _ => trivial, fun _ => trivial, rfl⟩

/-- A parameter of the prior. -/
theorem prior_param {h : Hp} (hok : h.Ok) (hdc : h.Declared) {v : Val} (hv : h.Accepts v) :
    ∃ q, h.clone = some q ∧ q.Ok ∧ h.SameDecl q ∧
      (SearchSpace.setHp SearchSpace.valuesOnly q v).raised = false ∧
      (SearchSpace.setHp SearchSpace.valuesOnly q v).st.Contrib (h.score h.dflt (some v)) := by
  obtain ⟨q, hq, h1, h2, h3, h4, h5, h6⟩ := clone_fresh hok hdc
  have hqv := (h1.accepts v).mp hv
  obtain ⟨s1, s2, s3, s4⟩ := setValue_ok h3 hqv
  obtain ⟨m1, m2, m3⟩ := setValue_more h3 hqv
  refine ⟨q, hq, h3, h1, ?_⟩
  rw [setHp_value h3 hqv]
  refine ⟨s1, ?_⟩
  have := contrib s4 (m1 h4) (m2 h5) s2 _ (m3.trans h6)
  rw [s3.dflt, h1.dflt] at this
  unfold score
  cases hd : h.dflt <;> rw [hd] at this <;> exact this

/-- Making the value the default. -/
theorem defaultToValue_ok {h : Hp} (hok : h.Ok) (hval : h.value ≠ none) :
    (SearchSpace.defaultToValue h).raised = false ∧ h.SameRange (SearchSpace.defaultToValue h).st ∧
      (SearchSpace.defaultToValue h).st.Ok ∧
      (SearchSpace.defaultToValue h).st.dflt = (match h with
        | .cat _ => h.dflt
        | _ => h.value) ∧
      (SearchSpace.defaultToValue h).st.around = h.around ∧
      (h.Confident → (SearchSpace.defaultToValue h).st.Confident) ∧
      (h.Settled → ¬ h.IsLogInt → (SearchSpace.defaultToValue h).st.Settled) := by
  obtain ⟨v, hv⟩ := Option.ne_none_iff_exists'.1 hval
  have hac := hok.value v hv
  cases h with
  | float p =>
    obtain ⟨x, rfl, hx⟩ := hac
    have hpv : p.value = some x := by
      simp only [Hp.value, Option.map_eq_some_iff, Val.num.injEq, exists_eq_right] at hv
      exact hv
    obtain ⟨d1, d2, d3, d4, d5⟩ := setDefault_ok hok (by simp [IsConst]) (v := .num x) ⟨x, rfl, hx⟩
    have e : SearchSpace.defaultToValue (.float p) = Hp.setDefault (.float p) (.num x) := by
      simp [SearchSpace.defaultToValue, Hp.setDefault, hpv]
    rw [e]
    have e' : p.setDefault (some x) = ⟨{ p with dflt := some x, hasPrior := true }, false⟩ := by
      simp [FloatParam.setDefault, hx]
    refine ⟨d1, d2, d5, d4.trans hv.symm, ?_, ?_, fun _ _ => ?_⟩ <;>
      simp only [Hp.setDefault, Call.lift, e']
    · exact around_float rfl rfl rfl rfl
    · exact id
    · trivial
  | int p =>
    obtain ⟨n, rfl, hn⟩ := hac
    have hpv : p.value = some n := by
      simp only [Hp.value, Option.map_eq_some_iff, Val.num.injEq, Int.cast_inj, exists_eq_right] at hv
      exact hv
    obtain ⟨d1, d2, d3, d4, d5⟩ := setDefault_ok hok (by simp [IsConst]) (v := .num n) ⟨n, rfl, hn⟩
    have e : SearchSpace.defaultToValue (.int p) = Hp.setDefault (.int p) (.num n) := by
      simp [SearchSpace.defaultToValue, Hp.setDefault, hpv]
    rw [e]
    refine ⟨d1, d2, d5, d4.trans hv.symm, around_int rfl rfl rfl rfl, id, fun hs hl => ?_⟩
    have hl' : p.log = false := by simpa [IsLogInt] using hl
    have hs' : p.logDflt = IntParam.logOf p.log p.dflt := hs
    simp only [Hp.setDefault, Call.lift, IntParam.setDefault, Settled, hs']
    simp [IntParam.logOf, hl']
  | cat p => exact ⟨rfl, SameRange.refl _, hok, rfl, rfl, id, fun h _ => h⟩
  | const p =>
    refine ⟨rfl, SameRange.refl _, hok, ?_, rfl, id, fun h _ => h⟩
    have : p.dflt = p.value := hok.used
    simp [SearchSpace.defaultToValue, Hp.dflt, Hp.value, this]

/-- A log-scale integer of the incumbent: the prior stays where it was. -/
theorem logInt_computePrior {p : IntParam} (hok : (Hp.int p).Ok) (hl : p.log = true) (d : Option ℝ)
    {v : ℝ} (hv : (p.lower : ℝ) ≤ v ∧ v ≤ p.upper) :
    ((p.setDefault d).st.setValue (some v)).st.computePrior = (p.setValue (some v)).st.computePrior ∧
    ((p.setDefault d).st.setValue (some v)).raised = false ∧
    ((p.setDefault d).st.setValue (some v)).st.hasPrior = d.isSome := by
  have hi : p.Inv := IntParam.Used.inv hok.used
  have hi' : (p.setDefault d).st.Inv := IntParam.Used.inv (IntParam.Used.setDefault d hok.used)
  have e := (hi.setValue_ok hv).1
  have f1 : (p.setDefault d).st.lower = p.lower ∧ (p.setDefault d).st.upper = p.upper ∧
      (p.setDefault d).st.log = p.log ∧ (p.setDefault d).st.logDflt = p.logDflt ∧
      (p.setDefault d).st.score = p.score ∧ (p.setDefault d).st.hasPrior = d.isSome := by
    cases d <;> exact ⟨rfl, rfl, rfl, rfl, rfl, rfl⟩
  obtain ⟨f1, f2, f3, f4, f5, f6⟩ := f1
  have e' := (hi'.setValue_ok (v := v) (by rw [f1, f2]; exact hv)).1
  rw [e, e']
  refine ⟨?_, rfl, f6⟩
  simp only [IntParam.computePrior, IntParam.priorCenter, f1, f2, f3, f4, f5, hl, if_true]

/-- A parameter of the incumbent. -/
theorem inc_param {h : Hp} (hok : h.Ok) (hdc : h.Declared) (hval : h.value ≠ none) {v : Val}
    (hv : h.Accepts v) :
    ∃ q, h.clone = some q ∧ q.Ok ∧ h.SameDecl q ∧ (SearchSpace.defaultToValue q).raised = false ∧
      (SearchSpace.setHp SearchSpace.valuesOnly (SearchSpace.defaultToValue q).st v).raised = false ∧
      ((h.IsLogInt → h.dflt ≠ none) →
        (SearchSpace.setHp SearchSpace.valuesOnly (SearchSpace.defaultToValue q).st v).st.Contrib
          (h.score h.usedCenter (some v))) ∧
      (h.IsLogInt → h.dflt = none →
        (SearchSpace.setHp SearchSpace.valuesOnly
          (SearchSpace.defaultToValue q).st v).st.hasPrior = true ∧
        (SearchSpace.setHp SearchSpace.valuesOnly
          (SearchSpace.defaultToValue q).st v).st.computePrior = none) := by
  obtain ⟨q, hq, h1, h2, h3, h4, h5, h6⟩ := clone_fresh hok hdc
  obtain ⟨d1, d2, d3, d4, d5, d6, d7⟩ := defaultToValue_ok h3 (by rw [h2]; exact hval)
  have hqv := (h1.accepts v).mp hv
  have hdv := (d2.accepts v).mp hqv
  refine ⟨q, hq, h3, h1, d1, ?_⟩
  rw [setHp_value d3 hdv]
  obtain ⟨s1, s2, s3, s4⟩ := setValue_ok d3 hdv
  obtain ⟨m1, m2, m3⟩ := setValue_more d3 hdv
  refine ⟨s1, ?_, ?_⟩
  · intro hdef
    by_cases hl : h.IsLogInt
    · -- a log scale integer
      cases h with
      | int p =>
        cases q with
        | int q =>
          obtain ⟨n, rfl, hn⟩ := hv
          have hlog : p.log = true := hl
          have hlq : q.log = true := by rw [h1.2.2.1]; exact hlog
          have hb : (q.lower : ℝ) ≤ (n : ℝ) ∧ (n : ℝ) ≤ q.upper := by
            rw [h1.1, h1.2.1]
            exact ⟨by exact_mod_cast hn.1, by exact_mod_cast hn.2⟩
          obtain ⟨l1, l2, l3⟩ := logInt_computePrior h3 hlq
            (q.value.map fun (n : ℤ) => (n : ℝ)) hb
          obtain ⟨t1, t2, t3, t4⟩ := setValue_ok h3 hqv
          obtain ⟨u1, u2, u3⟩ := setValue_more h3 hqv
          have hc := contrib t4 (u1 h4) (u2 h5) t2 _ (u3.trans h6)
          obtain ⟨c, hcd⟩ := Option.ne_none_iff_exists'.1 (hdef hl)
          rw [t3.dflt, h1.dflt, hcd] at hc
          have hpr : ((Hp.int q).setValue (.num n)).st.hasPrior = true := by
            rw [hasPrior_eq t4]
            have e1 : ((Hp.int q).setValue (.num n)).st.dflt = some c := by
              rw [t3.dflt, h1.dflt, hcd]
            have e2 : ¬ ((Hp.int q).setValue (.num n)).st.IsConst := by
              simp [Hp.setValue, Call.lift, IsConst]
            revert e1 e2
            cases ((Hp.int q).setValue (.num n)).st <;> simp_all [counts, IsConst]
          have hqn : q.value ≠ none := by
            intro h0
            apply hval
            rw [← h2]
            simp [Hp.value, h0]
          rcases hc with ⟨hc, -⟩ | ⟨-, hc⟩
          · rw [hpr] at hc; cases hc
          · right
            refine ⟨?_, ?_⟩
            · show ((q.setDefault _).st.setValue _).st.hasPrior = true
              rw [l3]
              cases hqv : q.value with
              | none => exact absurd hqv hqn
              | some _ => rfl
            · show ((q.setDefault _).st.setValue _).st.computePrior = _
              rw [l1]
              have : (q.setValue (some (n : ℝ))).st.computePrior =
                some ((Hp.int p).fresh.around c (.num n)) := hc
              rw [this]
              simp only [score, usedCenter, hlog, if_true, hcd]
        | _ => simp [SameDecl] at h1
      | _ => simp [IsLogInt] at hl
    · have hlq : ¬ q.IsLogInt := by
        cases h <;> cases q <;> simp_all [IsLogInt, SameDecl]
      have hc := contrib s4 (m1 (d7 h4 hlq)) (m2 (d6 h5)) s2 _ (m3.trans (d5.trans h6))
      have hd : ((SearchSpace.defaultToValue q).st.setValue v).st.dflt = h.usedCenter := by
        rw [s3.dflt, d4]
        have e1 := h1.dflt
        cases h <;> cases q <;> simp_all [SameDecl, usedCenter, IsLogInt]
      rw [hd] at hc
      unfold score
      cases hcen : h.usedCenter <;> rw [hcen] at hc <;> exact hc
  · intro hl hnone
    cases h with
    | int p =>
      cases q with
      | int q =>
        obtain ⟨n, rfl, hn⟩ := hv
        have hlog : p.log = true := hl
        have hlq : q.log = true := by rw [h1.2.2.1]; exact hlog
        have hb : (q.lower : ℝ) ≤ (n : ℝ) ∧ (n : ℝ) ≤ q.upper := by
          rw [h1.1, h1.2.1]
          exact ⟨by exact_mod_cast hn.1, by exact_mod_cast hn.2⟩
        obtain ⟨l1, l2, l3⟩ := logInt_computePrior h3 hlq
          (q.value.map fun (n : ℤ) => (n : ℝ)) hb
        have hqn : q.value ≠ none := by
          intro h0
          apply hval
          rw [← h2]
          simp [Hp.value, h0]
        have hqd : q.dflt = none := by
          rw [h1.2.2.2.2]
          simpa [Hp.dflt] using hnone
        refine ⟨?_, ?_⟩
        · show ((q.setDefault _).st.setValue _).st.hasPrior = true
          rw [l3]
          cases hqv : q.value with
          | none => exact absurd hqv hqn
          | some _ => rfl
        · show ((q.setDefault _).st.setValue _).st.computePrior = _
          rw [l1]
          have h4' : q.logDflt = IntParam.logOf q.log q.dflt := h4
          have hi : q.Inv := IntParam.Used.inv h3.used
          rw [(hi.setValue_ok hb).1]
          simp [IntParam.computePrior, IntParam.priorCenter, hlq, h4', hqd, IntParam.logOf]
      | _ => simp [SameDecl] at h1
    | _ => simp [IsLogInt] at hl

end Hp

/-! ## Spaces -/

namespace SearchSpace

theorem mapM_of_eq {α β : Type*} {f : α → Option β} {g : α → β} :
    ∀ {l : List α}, (∀ a ∈ l, f a = some (g a)) → l.mapM f = some (l.map g)
  | [], _ => rfl
  | a :: l, h => by
    simp only [List.mapM_cons, h a (by simp), mapM_of_eq (l := l) (fun b hb => h b (by simp [hb])),
      Option.bind_eq_bind, Option.bind_some, Option.pure_def, List.map_cons]

/-- The copies of the parameters. -/
noncomputable def copies (s : SearchSpace) : SearchSpace := s.map fun p => (p.1, p.2.clone.getD p.2)

theorem clone_copies {s : SearchSpace} (h : s.InOrder) : s.clone = some s.copies := by
  have hm : s.mapM (fun p : String × Hp => p.2.clone.map fun q => (p.1, q)) = some s.copies := by
    apply mapM_of_eq
    intro p hp
    obtain ⟨q, hq, _⟩ := Hp.clone_ok (h.ok p hp)
    simp [hq]
  unfold clone
  rw [hm]
  apply h.make
  unfold copies
  rw [List.forall₂_map_right_iff, List.forall₂_same]
  intro p hp
  obtain ⟨q, hq, h1, _⟩ := Hp.clone_ok (h.ok p hp)
  simp [hq, h1]

theorem setLoop_eq (o : SetOpts) (new : Dict Val) (val : String → Val) :
    ∀ (c : SearchSpace), (∀ p ∈ c, new.get? p.1 = some (val p.1) ∧
      (setHp o p.2 (val p.1)).raised = false) →
    setLoop o new c = ⟨c.map fun p => (p.1, (setHp o p.2 (val p.1)).st), false⟩
  | [], _ => rfl
  | (k, h) :: c, hc => by
    obtain ⟨h1, h2⟩ := hc (k, h) (by simp)
    have ih := setLoop_eq o new val c (fun p hp => hc p (by simp [hp]))
    simp only at h1 h2
    simp only [setLoop, h1, h2, Bool.false_eq_true, if_false, ih, List.map_cons]

theorem priorLoop_contrib {s : SearchSpace} (f : String × Hp → Hp) (x : String × Hp → ℝ)
    (h : ∀ p ∈ s, (f p).Contrib (x p)) (acc : ℝ) :
    priorLoop false false (s.map fun p => (p.1, f p)) acc = some (acc * (s.map x).prod) := by
  induction s generalizing acc with
  | nil => simp [priorLoop]
  | cons p s ih =>
    have ih := ih (fun p hp => h p (by simp [hp]))
    rcases h p (by simp) with ⟨h1, h2⟩ | ⟨h1, h2⟩
    · simp only [List.map_cons, priorLoop, h1, if_true, ih, h2, List.prod_cons, one_mul]
    · simp only [List.map_cons, priorLoop, h1, Bool.true_eq_false, if_false, Bool.false_eq_true, false_and,
        hpPrior, h2, Option.map_some, ih, List.prod_cons]
      congr 1; ring

theorem priorLoop_none {s : SearchSpace} (f : String × Hp → Hp) (h : ∃ p ∈ s, (f p).hasPrior = true ∧
    (f p).computePrior = none) (acc : ℝ) :
    priorLoop false false (s.map fun p => (p.1, f p)) acc = none := by
  induction s generalizing acc with
  | nil => simp at h
  | cons p s ih =>
    obtain ⟨r, hr, h1, h2⟩ := h
    rcases List.mem_cons.1 hr with rfl | hr
    · simp [List.map_cons, priorLoop, h1, hpPrior, h2]
    · have ih := ih ⟨r, hr, h1, h2⟩
      simp only [List.map_cons, priorLoop, ih]
      split_ifs
      · rfl
      · simp_all
      · split <;> rfl

/-- The values of a configuration, by name. -/
theorem values_of {s config : SearchSpace} (hc : config.InOrder) (hv : config.Valued)
    (hsc : s.SameSpace config) {vals : Dict Val} (hs : config.serialize = some vals) :
    ∃ val : String → Val, (∀ p ∈ s, vals.get? p.1 = some (val p.1) ∧
      (p.2.Accepts (val p.1))) ∧ ∀ center, scoreOf center s config =
        (s.map fun p => p.2.score (center p.2) (some (val p.1))).prod := by
  obtain ⟨d, hd, hall⟩ := serialize_some hv
  rw [hs] at hd
  obtain rfl := Option.some.inj hd
  have hkeys : Dict.keys vals = Dict.keys config := by
    clear hs hsc hv hc hd
    induction hall with
    | nil => rfl
    | cons hab _ ih => simp only [Dict.keys, List.map_cons] at ih ⊢; rw [hab.1, ih]
  have hn : (Dict.keys vals).Nodup := by rw [hkeys]; exact hc.nodup
  have hget : ∀ q ∈ config, ∃ v, q.2.value = some v ∧ vals.get? q.1 = some v := by
    intro q hq
    obtain ⟨⟨k, v⟩, hkv, h1, h2⟩ := forall₂_mem_left hall q hq
    simp only at h1 h2
    refine ⟨v, h2, ?_⟩
    rw [← h1]
    exact Dict.get?_of_mem hn hkv
  refine ⟨fun k => (vals.get? k).getD (.num 0), ?_, ?_⟩
  · intro p hp
    obtain ⟨q, hq, h1, h2⟩ := forall₂_mem_left hsc p hp
    obtain ⟨v, v1, v2⟩ := hget q hq
    rw [h1] at v2
    simp only [v2, Option.getD_some, true_and]
    exact (h2.accepts v).mpr ((hc.ok q hq).value v v1)
  · intro center
    unfold scoreOf
    congr 1
    clear hs hall hkeys hn hv hd hc
    unfold SameSpace at hsc
    induction hsc with
    | nil => rfl
    | @cons p q s config hpq _ ih =>
      obtain ⟨v, v1, v2⟩ := hget q (by simp)
      rw [hpq.1] at v2
      simp only [List.zip_cons_cons, List.map_cons, v1, v2, Option.getD_some]
      rw [ih (fun r hr => hget r (by simp [hr]))]

/-- What `compute_scores` computes. -/
theorem computeScores_eq (config prior inc : SearchSpace) (hp : prior.InOrder) (hi : inc.InOrder)
    (hc : config.InOrder) (hcv : config.Valued) (hiv : inc.Valued) (hpc : prior.SameSpace config)
    (hic : inc.SameSpace config) (hpd : ∀ p ∈ prior, p.2.Declared) (hid : ∀ p ∈ inc, p.2.Declared) :
    ((∀ p ∈ inc, p.2.IsLogInt → p.2.dflt ≠ none) →
      computeScores config prior inc =
        some (scoreOf Hp.dflt prior config, scoreOf Hp.usedCenter inc config)) ∧
    ((∃ p ∈ inc, p.2.IsLogInt ∧ p.2.dflt = none) → computeScores config prior inc = none) := by
  obtain ⟨vals, hs, -⟩ := serialize_some hcv
  obtain ⟨val, a1, a2⟩ := values_of hc hcv hpc hs
  obtain ⟨val', b1, b2⟩ := values_of hc hcv hic hs
  -- the prior
  have e1 : prior.copies.setFromDict valuesOnly vals =
      ⟨prior.map fun p => (p.1, (setHp valuesOnly (p.2.clone.getD p.2) (val p.1)).st), false⟩ := by
    unfold setFromDict
    rw [if_neg (by simp [valuesOnly]), setLoop_eq valuesOnly vals val]
    · simp [copies, Function.comp_def]
    · intro p hpm
      simp only [copies, List.mem_map] at hpm
      obtain ⟨r, hr, rfl⟩ := hpm
      obtain ⟨q, q1, q2, q3, q4, q5⟩ := Hp.prior_param (hp.ok r hr) (hpd r hr) (a1 r hr).2
      exact ⟨(a1 r hr).1, by simp only [q1, Option.getD_some]; exact q4⟩
  have e2 : computePrior (prior.map fun p =>
      (p.1, (setHp valuesOnly (p.2.clone.getD p.2) (val p.1)).st)) false false =
      some (scoreOf Hp.dflt prior config) := by
    unfold computePrior
    rw [priorLoop_contrib _ (fun p => p.2.score p.2.dflt (some (val p.1)))]
    · rw [a2]; simp
    · intro r hr
      obtain ⟨q, q1, q2, q3, q4, q5⟩ := Hp.prior_param (hp.ok r hr) (hpd r hr) (a1 r hr).2
      simp only [q1, Option.getD_some]
      exact q5
  -- the incumbent
  have e3 : inc.copies.setDefaultsToValues = some (inc.map fun p =>
      (p.1, (defaultToValue (p.2.clone.getD p.2)).st)) := by
    unfold setDefaultsToValues
    rw [mapM_of_eq (g := fun p => (p.1, (defaultToValue p.2).st))]
    · simp [copies, Function.comp_def]
    · intro p hpm
      simp only [copies, List.mem_map] at hpm
      obtain ⟨r, hr, rfl⟩ := hpm
      obtain ⟨q, q1, q2, q3, q4, -⟩ := Hp.inc_param (hi.ok r hr) (hid r hr) (hiv r hr) (b1 r hr).2
      simp [q1, q4]
  have e4 : setFromDict (inc.map fun p => (p.1, (defaultToValue (p.2.clone.getD p.2)).st)) valuesOnly vals =
      ⟨inc.map fun p => (p.1, (setHp valuesOnly (defaultToValue (p.2.clone.getD p.2)).st (val' p.1)).st),
        false⟩ := by
    unfold setFromDict
    rw [if_neg (by simp [valuesOnly]), setLoop_eq valuesOnly vals val']
    · simp [Function.comp_def]
    · intro p hpm
      simp only [List.mem_map] at hpm
      obtain ⟨r, hr, rfl⟩ := hpm
      obtain ⟨q, q1, q2, q3, q4, q5, -⟩ := Hp.inc_param (hi.ok r hr) (hid r hr) (hiv r hr) (b1 r hr).2
      exact ⟨(b1 r hr).1, by simp only [q1, Option.getD_some]; exact q5⟩
  unfold computeScores
  simp only [hs, clone_copies hp, clone_copies hi, Option.bind_eq_bind, Option.bind_some, e1, e2, e3, e4,
    Bool.false_eq_true, if_false]
  constructor
  · intro hl
    have e5 : computePrior (inc.map fun p =>
        (p.1, (setHp valuesOnly (defaultToValue (p.2.clone.getD p.2)).st (val' p.1)).st)) false false =
        some (scoreOf Hp.usedCenter inc config) := by
      unfold computePrior
      rw [priorLoop_contrib _ (fun p => p.2.score p.2.usedCenter (some (val' p.1)))]
      · rw [b2]; simp
      · intro r hr
        obtain ⟨q, q1, q2, q3, q4, q5, q6, q7⟩ :=
          Hp.inc_param (hi.ok r hr) (hid r hr) (hiv r hr) (b1 r hr).2
        simp only [q1, Option.getD_some]
        exact q6 (hl r hr)
    rw [e5]
    rfl
  · rintro ⟨r, hr, hl, hd⟩
    have e5 : computePrior (inc.map fun p =>
        (p.1, (setHp valuesOnly (defaultToValue (p.2.clone.getD p.2)).st (val' p.1)).st)) false false =
        none := by
      unfold computePrior
      apply priorLoop_none
      obtain ⟨q, q1, q2, q3, q4, q5, q6, q7⟩ :=
        Hp.inc_param (hi.ok r hr) (hid r hr) (hiv r hr) (b1 r hr).2
      refine ⟨r, hr, ?_⟩
      simp only [q1, Option.getD_some]
      exact q7 hl hd
    rw [e5]
    rfl

/-! ## The properties -/

/-- **C107**: the first score of a configuration is its likelihood around the defaults of the prior, with the
confidence the parameters were declared with. -/
theorem C107_prior_score (config prior inc : SearchSpace) (hp : prior.InOrder) (hi : inc.InOrder)
    (hc : config.InOrder) (hcv : config.Valued) (hiv : inc.Valued) (hpc : prior.SameSpace config)
    (hic : inc.SameSpace config) (hpd : ∀ p ∈ prior, p.2.Declared) (hid : ∀ p ∈ inc, p.2.Declared)
    (a b : ℝ) (h : computeScores config prior inc = some (a, b)) :
    a = scoreOf Hp.dflt prior config := by
  obtain ⟨h1, h2⟩ := computeScores_eq config prior inc hp hi hc hcv hiv hpc hic hpd hid
  by_cases hl : ∃ p ∈ inc, p.2.IsLogInt ∧ p.2.dflt = none
  · rw [h2 hl] at h; cases h
  · push Not at hl
    rw [h1 hl] at h
    simp only [Option.some.injEq, Prod.mk.injEq] at h
    exact h.1.symm

/-- **C107**, for spaces without categorical parameters and integers on a log scale: the scores are the
likelihood of the configuration around the defaults of the prior, and around the values of the incumbent.
Missing: the other spaces, for which it fails; and the fidelity is counted, see below. -/
theorem C107_scores_partial (config prior inc : SearchSpace) (hp : prior.InOrder) (hi : inc.InOrder)
    (hc : config.InOrder) (hcv : config.Valued) (hiv : inc.Valued) (hpc : prior.SameSpace config)
    (hic : inc.SameSpace config) (hpd : ∀ p ∈ prior, p.2.Declared) (hid : ∀ p ∈ inc, p.2.Declared)
    (hn : ∀ p ∈ inc, ¬ p.2.IsCat ∧ ¬ p.2.IsLogInt) :
    computeScores config prior inc =
      some (scoreOf Hp.dflt prior config, scoreOf Hp.value inc config) := by
  rw [(computeScores_eq config prior inc hp hi hc hcv hiv hpc hic hpd hid).1
    (fun p hp hl => absurd hl (hn p hp).2)]
  have : scoreOf Hp.usedCenter inc config = scoreOf Hp.value inc config := by
    unfold scoreOf
    congr 1
    apply List.map_congr_left
    rintro ⟨p, q⟩ hpq
    have hpm : p ∈ inc := (List.of_mem_zip hpq).1
    obtain ⟨h1, h2⟩ := hn p hpm
    have : p.2.usedCenter = p.2.value := by
      obtain ⟨k, h⟩ := p
      cases h <;> simp_all [Hp.usedCenter, Hp.IsCat, Hp.IsLogInt]
    simp only [this]
  rw [this]

/-- **C107 fails** for categorical parameters and integers on a log scale: in a space of such parameters the
scores do not depend on the values of the incumbent at all. -/
theorem C107_incumbent_ignored_fails (config prior inc inc' : SearchSpace) (hp : prior.InOrder)
    (hi : inc.InOrder) (hi' : inc'.InOrder) (hc : config.InOrder) (hcv : config.Valued)
    (hiv : inc.Valued) (hiv' : inc'.Valued) (hpc : prior.SameSpace config)
    (hic : inc.SameSpace config) (hic' : inc'.SameSpace config) (hpd : ∀ p ∈ prior, p.2.Declared)
    (hid : ∀ p ∈ inc, p.2.Declared) (hid' : ∀ p ∈ inc', p.2.Declared)
    (hsame : inc.Pointwise (fun _ a b => a.fresh.around = b.fresh.around) inc')
    (hn : ∀ p ∈ inc, p.2.dflt ≠ none ∧ (p.2.IsCat ∨ p.2.IsLogInt)) :
    computeScores config prior inc = computeScores config prior inc' := by
  have hn' : ∀ p ∈ inc', p.2.dflt ≠ none ∧ (p.2.IsCat ∨ p.2.IsLogInt) := by
    intro q hq
    obtain ⟨p, hp, -, h2, -⟩ := forall₂_mem_right hsame q hq
    obtain ⟨h3, h4⟩ := hn p hp
    rw [h2.dflt]
    refine ⟨h3, ?_⟩
    obtain ⟨k, h⟩ := p
    obtain ⟨k', h'⟩ := q
    cases h <;> cases h' <;> simp_all [Hp.IsCat, Hp.IsLogInt, Hp.SameDecl]
  rw [(computeScores_eq config prior inc hp hi hc hcv hiv hpc hic hpd hid).1 (fun p hp _ => (hn p hp).1),
    (computeScores_eq config prior inc' hp hi' hc hcv hiv' hpc hic' hpd hid').1
      (fun p hp _ => (hn' p hp).1)]
  have : scoreOf Hp.usedCenter inc config = scoreOf Hp.usedCenter inc' config := by
    unfold scoreOf
    congr 1
    clear hic hic' hpc hiv hiv' hid hid' hi hi' hcv hc
    have key : ∀ (h h' : Hp) (v : Option Val), h.SameDecl h' → h.fresh.around = h'.fresh.around →
        (h.IsCat ∨ h.IsLogInt) → h.score h.usedCenter v = h'.score h'.usedCenter v := by
      intro h h' v hd hf hor
      have e1 : h'.usedCenter = h.usedCenter := by
        have := hd.dflt
        cases h <;> cases h' <;> simp_all [Hp.usedCenter, Hp.IsCat, Hp.IsLogInt, Hp.SameDecl]
      unfold Hp.score
      rw [e1, hf]
    unfold Pointwise at hsame
    clear hn'
    induction hsame generalizing config with
    | nil => rfl
    | @cons p q s t hpq _ ih =>
      cases config with
      | nil => rfl
      | cons c config =>
        simp only [List.zip_cons_cons, List.map_cons]
        rw [ih config (fun p hp => hn p (by simp [hp])),
          key p.2 q.2 _ hpq.2.1 hpq.2.2 (hn p (by simp)).2]
  rw [this]

/-- **C107 fails**: `compute_scores` raises if the space has an integer on a log scale without a default, such
as a fidelity. -/
theorem C107_log_integer_fails (config prior inc : SearchSpace) (hp : prior.InOrder) (hi : inc.InOrder)
    (hc : config.InOrder) (hcv : config.Valued) (hiv : inc.Valued) (hpc : prior.SameSpace config)
    (hic : inc.SameSpace config) (hpd : ∀ p ∈ prior, p.2.Declared) (hid : ∀ p ∈ inc, p.2.Declared) :
    computeScores config prior inc = none ↔ ∃ p ∈ inc, p.2.IsLogInt ∧ p.2.dflt = none := by
  obtain ⟨h1, h2⟩ := computeScores_eq config prior inc hp hi hc hcv hiv hpc hic hpd hid
  refine ⟨fun h => ?_, h2⟩
  by_contra hl
  push Not at hl
  rw [h1 hl] at h
  cases h

end SearchSpace

/-! ## Cases -/

theorem demoPair_same (x e x' e' : ℝ) : (demoPair x e).SameSpace (demoPair x' e') :=
  .cons ⟨rfl, rfl, rfl, rfl, rfl⟩ (.cons ⟨rfl, rfl, rfl, rfl, rfl⟩ .nil)

theorem demoPair_declared (x e : ℝ) : ∀ p ∈ demoPair x e, p.2.Declared := by
  simp only [demoPair, List.mem_cons, List.not_mem_nil, or_false]
  rintro p (rfl | rfl) <;> simp [Hp.Declared, demoFloat]

/-- The hypotheses of `C107_scores_partial` are met. -/
theorem demoPair_scores {x e x' e' : ℝ} (hx : 0 ≤ x ∧ x ≤ 1) (he : 1 ≤ e ∧ e ≤ 10)
    (hx' : 0 ≤ x' ∧ x' ≤ 1) (he' : 1 ≤ e' ∧ e' ≤ 10) :
    SearchSpace.computeScores (demoPair x e) (demoPair x' e') (demoPair x' e') =
      some (SearchSpace.scoreOf Hp.dflt (demoPair x' e') (demoPair x e),
        SearchSpace.scoreOf Hp.value (demoPair x' e') (demoPair x e)) := by
  apply SearchSpace.C107_scores_partial _ _ _ (demoPair_inOrder hx' he') (demoPair_inOrder hx' he')
    (demoPair_inOrder hx he) (demoPair_valued _ _) (demoPair_valued _ _) (demoPair_same _ _ _ _)
    (demoPair_same _ _ _ _) (demoPair_declared _ _) (demoPair_declared _ _)
  simp only [demoPair, List.mem_cons, List.not_mem_nil, or_false]
  rintro p (rfl | rfl) <;> simp [Hp.IsCat, Hp.IsLogInt]

/-- **C107 fails** to leave out the fidelity: of two configurations that differ only in the fidelity, the one
that was evaluated at the fidelity of the incumbent has the greater score with respect to the incumbent. -/
theorem C107_fidelity_fails (x x' : ℝ) (hx : 0 ≤ x ∧ x ≤ 1) (hx' : 0 ≤ x' ∧ x' ≤ 1) :
    ∃ a b a' b', SearchSpace.computeScores (demoPair x 1) (demoPair x' 10) (demoPair x' 10) = some (a, b) ∧
      SearchSpace.computeScores (demoPair x 10) (demoPair x' 10) (demoPair x' 10) = some (a', b') ∧
      a = a' ∧ b < b' := by
  refine ⟨_, _, _, _, demoPair_scores hx (by norm_num) hx' (by norm_num),
    demoPair_scores hx (by norm_num) hx' (by norm_num), ?_, ?_⟩
  · simp [SearchSpace.scoreOf, demoPair, Hp.score, Hp.dflt, Hp.value, demoFloat]
  · have hpos := Hp.around_pos (h := (Hp.float (demoFloat 0 1 false (some (1 / 2)) x')).fresh)
      (demoFloat_ok (l := 0) (u := 1) (by norm_num) hx' (by rintro y ⟨⟩; norm_num))
      (by simp [Hp.fresh, Hp.Confident, demoFloat]) (.num x') (.num x)
    simp only [SearchSpace.scoreOf, demoPair, List.zip_cons_cons, List.zip_nil_right, List.map_cons,
      List.map_nil, List.prod_cons, List.prod_nil, mul_one]
    have e1 : ∀ (l u : ℝ) (fid : Bool) (d : Option ℝ) (v : ℝ), Hp.value (.float (demoFloat l u fid d v)) =
      some (.num v) := fun _ _ _ _ _ => rfl
    simp only [Hp.score, e1]
    apply mul_lt_mul_of_pos_left _ hpos
    have hg := gauss_integral_pos (μ := 10) (σ := 1 / 4 * (10 - 1)) (lo := 1) (hi := 10) (by norm_num)
    simp only [Hp.fresh, Hp.around, Hp.std, demoFloat, onScale, Bool.false_eq_true, if_false, truncDensity]
    apply mul_lt_mul_of_pos_left _ (by norm_num)
    apply div_lt_div_of_pos_right _ hg
    apply Real.exp_lt_exp.2
    norm_num

/-- A space of one activation function, with a value. -/
noncomputable def demoOne (v : Val) : SearchSpace := [("act", ((Hp.cat demoAct).setValue v).st)]

theorem demoOne_facts {v : Val} (hv : v ∈ demoAct.choices) :
    (demoOne v).InOrder ∧ (demoOne v).Valued ∧
      (∀ p ∈ demoOne v, p.2.Declared ∧ p.2.dflt ≠ none ∧ p.2.IsCat ∧
        (Hp.cat demoAct).SameDecl p.2 ∧ p.2.fresh.around = (Hp.cat demoAct).fresh.around) := by
  obtain ⟨s1, s2, s3, s4⟩ := Hp.setValue_ok demoAct_ok (v := v) hv
  obtain ⟨i, -, e⟩ := CatParam.setValue_mem (p := demoAct) hv
  refine ⟨⟨demoOne v, by simp [demoOne, Dict.keys], ?_, ?_⟩, ?_, ?_⟩
  · simp only [demoOne, List.mem_cons, List.not_mem_nil, or_false]
    rintro p rfl
    exact s4
  · have hs : Dict.sorted (demoOne v) = demoOne v := by
      unfold Dict.sorted
      apply List.mergeSort_of_pairwise
      simp [demoOne]
    unfold SearchSpace.make
    simp only [hs]
    rw [if_neg]
    simp [demoOne, Hp.isFidelity, Hp.setValue, Call.lift]
  · simp only [SearchSpace.Valued, demoOne, List.mem_cons, List.not_mem_nil, or_false]
    rintro p rfl
    rw [s2]; simp
  · simp only [demoOne, List.mem_cons, List.not_mem_nil, or_false]
    rintro p rfl
    refine ⟨?_, ?_, trivial, s3, ?_⟩
    · simp only [Hp.setValue, Call.lift, e, Hp.Declared]
      simp [demoAct]
    · rw [s3.dflt]; simp [Hp.dflt, demoAct]
    · simp only [Hp.setValue, Call.lift, e]
      rfl

/-- The hypotheses of `C107_incumbent_ignored_fails` are met: whether the incumbent uses "gelu" or "relu", a
configuration with "gelu" has the same scores. -/
example : SearchSpace.computeScores (demoOne (.str "gelu")) (demoOne (.str "tanh")) (demoOne (.str "gelu")) =
    SearchSpace.computeScores (demoOne (.str "gelu")) (demoOne (.str "tanh")) (demoOne (.str "relu")) := by
  have g := demoOne_facts (v := .str "gelu") (by simp [demoAct])
  have t := demoOne_facts (v := .str "tanh") (by simp [demoAct])
  have r := demoOne_facts (v := .str "relu") (by simp [demoAct])
  have same : ∀ v w, v ∈ demoAct.choices → w ∈ demoAct.choices → (demoOne v).SameSpace (demoOne w) := by
    intro v w hv hw
    have hv := (demoOne_facts hv).2.2 _ (List.mem_singleton.2 rfl)
    have hw := (demoOne_facts hw).2.2 _ (List.mem_singleton.2 rfl)
    exact .cons ⟨rfl, (hv.2.2.2.1.symm.trans hw.2.2.2.1).range⟩ .nil
  apply SearchSpace.C107_incumbent_ignored_fails _ _ _ _ t.1 g.1 r.1 g.1 g.2.1 g.2.1 r.2.1
    (same _ _ (by simp [demoAct]) (by simp [demoAct])) (same _ _ (by simp [demoAct]) (by simp [demoAct]))
    (same _ _ (by simp [demoAct]) (by simp [demoAct]))
    (fun p hp => (t.2.2 p hp).1) (fun p hp => (g.2.2 p hp).1) (fun p hp => (r.2.2 p hp).1)
  · have hv := g.2.2 _ (List.mem_singleton.2 rfl)
    have hw := r.2.2 _ (List.mem_singleton.2 rfl)
    exact .cons ⟨rfl, hv.2.2.2.1.symm.trans hw.2.2.2.1, hv.2.2.2.2.trans hw.2.2.2.2.symm⟩ .nil
  · exact fun p hp => ⟨(g.2.2 p hp).2.1, .inl (g.2.2 p hp).2.2.1⟩

end Verif.Space
