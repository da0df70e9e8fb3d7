import Verif.Space.Param
import Mathlib.Tactic.Ring
import Mathlib.Tactic.NormNum
import Mathlib.Tactic.FieldSimp
import Mathlib.Tactic.Positivity

/-! # Lemmas about hyperparameters -/

namespace Verif.Space

namespace FloatParam

/-- A float parameter some program can hold: constructed and then used through its methods, in
any order and with any arguments, including calls that raise. -/
inductive Used : FloatParam → Prop where
  | make {l u : ℝ} {log fid : Bool} {d : Option ℝ} {s : ℝ} {p : FloatParam} :
      FloatParam.make l u log fid d s = some p → Used p
  | setValue {p : FloatParam} (v : Option ℝ) : Used p → Used (p.setValue v).st
  | setDefault {p : FloatParam} (v : Option ℝ) : Used p → Used (p.setDefault v).st
  | loadFrom {p : FloatParam} (v : ℝ) : Used p → Used (p.loadFrom v).st
  | setConfidence {p : FloatParam} (s : Option ℝ) : Used p → Used (p.setConfidence s).st

/-- What the methods keep. -/
structure Inv (p : FloatParam) : Prop where
  lt : p.lower < p.upper
  pos : p.log = true → 0 < p.lower
  dflt : ∀ x, p.dflt = some x → p.lower ≤ x ∧ x ≤ p.upper
  prior : p.hasPrior = p.dflt.isSome
  value : ∀ x, p.value = some x → p.lower ≤ x ∧ x ≤ p.upper
  norm : p.normalized = p.value.map p.valueToNormalized

theorem make_inv {l u : ℝ} {log fid : Bool} {d : Option ℝ} {s : ℝ} {p : FloatParam}
    (h : FloatParam.make l u log fid d s = some p) :
    Inv p ∧ p.lower = l ∧ p.upper = u ∧ p.log = log ∧ p.isFidelity = fid ∧ p.dflt = d ∧
      p.score = s ∧ p.value = none := by
  unfold FloatParam.make at h
  split_ifs at h with h1 h2
  have h2' : log = true → 0 < l := by
    intro hl
    by_contra hc
    exact h2 ⟨hl, Or.inl (not_lt.mp hc)⟩
  cases d with
  | none =>
    simp only [Option.some.injEq] at h
    subst h
    exact ⟨⟨not_le.mp h1, h2', by simp, rfl, by simp, rfl⟩, rfl, rfl, rfl, rfl, rfl, rfl, rfl⟩
  | some x =>
    simp only at h
    split_ifs at h with h3
    simp only [Option.some.injEq] at h
    subst h
    refine ⟨⟨not_le.mp h1, h2', ?_, rfl, by simp, rfl⟩, rfl, rfl, rfl, rfl, rfl, rfl, rfl⟩
    intro y hy
    simp only [Option.some.injEq] at hy
    subst hy
    exact h3

theorem make_some {l u : ℝ} {log fid : Bool} {d : Option ℝ} {s : ℝ} (h1 : l < u)
    (h2 : log = true → 0 < l) (h3 : ∀ x, d = some x → l ≤ x ∧ x ≤ u) :
    FloatParam.make l u log fid d s =
      some ⟨l, u, log, fid, d, d.isSome, s, s, none, none⟩ := by
  unfold FloatParam.make
  rw [if_neg (not_le.mpr h1), if_neg]
  · cases d with
    | none => rfl
    | some x =>
      simp only
      rw [if_neg (not_not.mpr (h3 x rfl))]
      rfl
  · rintro ⟨hl, h⟩
    have := h2 hl
    rcases h with h | h <;> linarith

theorem setValue_inv {p : FloatParam} (h : Inv p) (v : Option ℝ) : Inv (p.setValue v).st := by
  unfold FloatParam.setValue
  cases v with
  | none => exact ⟨h.lt, h.pos, h.dflt, h.prior, by simp, rfl⟩
  | some v =>
    simp only
    split_ifs with hv
    · refine ⟨h.lt, h.pos, h.dflt, h.prior, ?_, rfl⟩
      intro x hx
      simp only [Option.some.injEq] at hx
      subst hx
      exact hv
    · exact h

theorem setDefault_inv {p : FloatParam} (h : Inv p) (v : Option ℝ) : Inv (p.setDefault v).st := by
  unfold FloatParam.setDefault
  cases v with
  | none => exact ⟨h.lt, h.pos, by simp, rfl, h.value, h.norm⟩
  | some v =>
    simp only
    split_ifs with hv
    · refine ⟨h.lt, h.pos, ?_, rfl, h.value, h.norm⟩
      intro x hx
      simp only [Option.some.injEq] at hx
      subst hx
      exact hv
    · exact h

theorem Inv.score {p : FloatParam} (h : Inv p) (s : ℝ) : Inv { p with score := s } :=
  ⟨h.lt, h.pos, h.dflt, h.prior, h.value, h.norm⟩

theorem Used.inv {p : FloatParam} (h : Used p) : Inv p := by
  induction h with
  | make h => exact (make_inv h).1
  | setValue v _ ih => exact setValue_inv ih v
  | setDefault v _ ih => exact setDefault_inv ih v
  | loadFrom v _ ih => exact setValue_inv ih (some v)
  | setConfidence s _ ih =>
    cases s with
    | none => exact ih
    | some s => exact ih.score s

namespace Inv

variable {p : FloatParam}

theorem low_lt_high (h : Inv p) : p.low < p.high := by
  unfold low high
  cases hl : p.log with
  | false => simpa using h.lt
  | true => simpa using Real.log_lt_log (h.pos hl) h.lt

/-- The unit interval is mapped into the bounds. -/
theorem normalizedToValue_mem (h : Inv p) {n : ℝ} (h0 : 0 ≤ n) (h1 : n ≤ 1) :
    p.lower ≤ p.normalizedToValue n ∧ p.normalizedToValue n ≤ p.upper := by
  have hlt := h.low_lt_high
  have e1 : p.low ≤ n * (p.high - p.low) + p.low := by
    have := mul_nonneg h0 (by linarith : 0 ≤ p.high - p.low); linarith
  have e2 : n * (p.high - p.low) + p.low ≤ p.high := by
    have := mul_le_mul_of_nonneg_right h1 (by linarith : 0 ≤ p.high - p.low); linarith
  unfold normalizedToValue
  cases hl : p.log with
  | false => simp only [low, high, hl] at e1 e2 ⊢; exact ⟨e1, e2⟩
  | true =>
    have hp := h.pos hl
    have hu : 0 < p.upper := lt_trans hp h.lt
    simp only [if_true]
    have a := Real.exp_le_exp.mpr e1
    have b := Real.exp_le_exp.mpr e2
    constructor
    · calc p.lower = Real.exp p.low := by simp [low, hl, Real.exp_log hp]
        _ ≤ _ := a
    · calc _ ≤ Real.exp p.high := b
        _ = p.upper := by simp [high, hl, Real.exp_log hu]

/-- A copy of a parameter is equal to the parameter, but for the confidence. -/
theorem clone_eq (h : Inv p) : p.clone = some { p with score := p.choice } := by
  unfold clone
  rw [make_some h.lt h.pos h.dflt]
  simp only [Option.bind_eq_bind, Option.bind_some]
  have hp := h.prior
  have hn := h.norm
  cases hv : p.value with
  | none =>
    rw [hv] at hn
    simp only [Option.map_none] at hn
    simp only [Option.pure_def, Option.some.injEq]
    cases p
    simp_all
  | some v =>
    have hb := h.value v hv
    rw [hv] at hn
    simp only [Option.map_some] at hn
    simp only [FloatParam.setValue]
    rw [if_neg (not_not.mpr hb)]
    simp only [Option.pure_def, Option.some.injEq, Bool.false_eq_true, if_false]
    cases p
    simp only at *
    subst hv
    rw [hn, hp]
    rfl

theorem sampleValue_mem (h : Inv p) (b : Bool) (u n : ℝ) :
    p.lower ≤ p.sampleValue b u n ∧ p.sampleValue b u n ≤ p.upper := by
  unfold sampleValue
  simp only
  exact ⟨le_min h.lt.le (le_max_left _ _), min_le_left _ _⟩

theorem setValue_ok (h : Inv p) {v : ℝ} (hv : p.lower ≤ v ∧ v ≤ p.upper) :
    (p.setValue (some v)).raised = false ∧ (p.setValue (some v)).st.value = some v ∧
      (p.setValue (some v)).st.lower = p.lower ∧ (p.setValue (some v)).st.upper = p.upper ∧
      Inv (p.setValue (some v)).st := by
  refine ⟨?_, ?_, ?_, ?_, setValue_inv h _⟩ <;> simp [FloatParam.setValue, hv]

end Inv

/-- Every neighbour holds a value within the bounds. -/
theorem neighbours_mem {p : FloatParam} (h : Inv p) (k : ℕ) (draws : List ℝ)
    (ns : List FloatParam) (hn : p.neighbours k draws = some ns) :
    ns.length = k ∧ ∀ q ∈ ns, Inv q ∧ q.lower = p.lower ∧ q.upper = p.upper ∧
      ∃ v, q.value = some v ∧ p.lower ≤ v ∧ v ≤ p.upper := by
  induction draws generalizing k ns with
  | nil =>
    cases k with
    | zero =>
      simp only [neighbours, Option.some.injEq] at hn
      subst hn
      simp
    | succ k => simp [neighbours] at hn
  | cons n draws ih =>
    cases k with
    | zero =>
      simp only [neighbours, Option.some.injEq] at hn
      subst hn
      simp
    | succ k =>
      unfold neighbours at hn
      split_ifs at hn with hc
      · exact ih _ _ hn
      · push Not at hc
        have hm := h.normalizedToValue_mem hc.1 hc.2
        obtain ⟨s1, s2, s3, s4, s5⟩ := (h.score p.choice).setValue_ok hm
        simp only [h.clone_eq, Option.bind_eq_bind, Option.bind_some, s1, Bool.false_eq_true,
          if_false] at hn
        rw [Option.bind_eq_some_iff] at hn
        obtain ⟨rest, hr, he⟩ := hn
        simp only [Option.pure_def, Option.some.injEq] at he
        subst he
        obtain ⟨hl, hq⟩ := ih _ _ hr
        refine ⟨by simp [hl], ?_⟩
        intro q hqm
        rcases List.mem_cons.mp hqm with rfl | hqm
        · exact ⟨s5, s3, s4, _, s2, hm⟩
        · exact hq q hqm

end FloatParam

/-! ## Integer parameters -/

namespace IntParam

/-- An integer parameter some program can hold: constructed and then used through its methods in
any order and with any arguments, including calls that raise. -/
inductive Used : IntParam → Prop where
  | make {l u : ℝ} {log fid : Bool} {d : Option ℝ} {s : ℝ} {p : IntParam} :
      IntParam.make l u log fid d s = some p → Used p
  | setValue {p : IntParam} (v : Option ℝ) : Used p → Used (p.setValue v).st
  | setDefault {p : IntParam} (v : Option ℝ) : Used p → Used (p.setDefault v).st
  | loadFrom {p : IntParam} (v : ℝ) : Used p → Used (p.loadFrom v).st
  | setConfidence {p : IntParam} (s : Option ℝ) : Used p → Used (p.setConfidence s).st

/-- What all the methods keep. -/
structure Inv (p : IntParam) : Prop where
  lt : p.lower < p.upper
  pos : p.log = true → 0 < p.lower
  fl : p.floatHp.lower = p.lower - margin
  fu : p.floatHp.upper = p.upper + margin
  flog : p.floatHp.log = p.log
  finv : FloatParam.Inv p.floatHp

theorem margin_bounds : (0 : ℝ) < margin ∧ margin < 1 / 2 := by
  unfold margin; norm_num

theorem make_inv {l u : ℝ} {log fid : Bool} {d : Option ℝ} {s : ℝ} {p : IntParam}
    (h : IntParam.make l u log fid d s = some p) :
    Inv p ∧ p.lower = rnd l ∧ p.upper = rnd u ∧ p.value = none ∧ p.dflt = d.map rnd ∧
      p.isFidelity = fid ∧ p.log = log ∧ (∀ x, p.dflt = some x → p.lower ≤ x ∧ x ≤ p.upper) := by
  unfold IntParam.make at h
  simp only at h
  split_ifs at h with h1 h2 h3
  rw [Option.bind_eq_bind, Option.bind_eq_some_iff] at h
  obtain ⟨f, hf, h⟩ := h
  simp only [Option.pure_def, Option.some.injEq] at h
  subst h
  obtain ⟨fi, e1, e2, e3, _⟩ := FloatParam.make_inv hf
  refine ⟨⟨by simp only; omega, ?_, e1, e2, e3, fi⟩, rfl, rfl, rfl, rfl, rfl, rfl, ?_⟩
  · intro hl
    by_contra hc
    exact h2 ⟨hl, Or.inl (not_lt.mp hc)⟩
  · intro x hx
    simp only at hx
    rw [hx] at h3
    simpa using h3

theorem make_some {l u : ℤ} {log fid : Bool} {d : Option ℤ} {s : ℝ} (h1 : l < u)
    (h2 : log = true → 0 < l) (h3 : ∀ x, d = some x → l ≤ x ∧ x ≤ u) :
    ∃ f, FloatParam.make ((l : ℝ) - margin) ((u : ℝ) + margin) log fid
        (d.map (fun (d : ℤ) => (d : ℝ))) s = some f ∧
      IntParam.make l u log fid (d.map (fun (d : ℤ) => (d : ℝ))) s =
      some ⟨l, u, log, fid, d, d.isSome, s, s, f, none, none,
        logOf log d⟩ := by
  have hm := margin_bounds
  have hlu : (l : ℝ) < u := by exact_mod_cast h1
  refine ⟨_, FloatParam.make_some (by linarith) ?_ ?_, ?_⟩
  · intro hl
    have : (1 : ℝ) ≤ l := by exact_mod_cast h2 hl
    linarith [hm.2]
  · intro x hx
    cases d with
    | none => simp at hx
    | some d =>
      simp only [Option.map_some, Option.some.injEq] at hx
      subst hx
      obtain ⟨a, b⟩ := h3 d rfl
      have a' : (l : ℝ) ≤ d := by exact_mod_cast a
      have b' : (d : ℝ) ≤ u := by exact_mod_cast b
      constructor <;> linarith [hm.1]
  · unfold IntParam.make
    have hd : (d.map (fun (d : ℤ) => (d : ℝ))).map rnd = d := by
      cases d with
      | none => rfl
      | some d => simp
    simp only [rnd_intCast, hd]
    rw [if_neg (by omega), if_neg, if_neg]
    · rw [FloatParam.make_some]
      · simp only [Option.bind_eq_bind, Option.bind_some, Option.pure_def]
      · linarith
      · intro hl
        have : (1 : ℝ) ≤ l := by exact_mod_cast h2 hl
        linarith [hm.2]
      · intro x hx
        cases d with
        | none => simp at hx
        | some d =>
          simp only [Option.map_some, Option.some.injEq] at hx
          subst hx
          obtain ⟨a, b⟩ := h3 d rfl
          have a' : (l : ℝ) ≤ d := by exact_mod_cast a
          have b' : (d : ℝ) ≤ u := by exact_mod_cast b
          constructor <;> linarith [hm.1]
    · cases d with
      | none => simp
      | some d => simpa using h3 d rfl
    · rintro ⟨hl, h⟩
      have := h2 hl
      rcases h with h | h <;> omega

namespace Inv

variable {p : IntParam}

/-- A number of the widened float range rounds to an integer within the bounds. -/
theorem rnd_mem (h : Inv p) {x : ℝ} (hx : p.floatHp.lower ≤ x ∧ x ≤ p.floatHp.upper) :
    p.lower ≤ rnd x ∧ rnd x ≤ p.upper := by
  have hm := margin_bounds
  rw [h.fl, h.fu] at hx
  have hn := rnd_near x
  rw [abs_le] at hn
  have a : (p.lower : ℝ) - 1 < rnd x := by linarith [hn.1, hx.1, hm.2]
  have b : (rnd x : ℝ) < (p.upper : ℝ) + 1 := by linarith [hn.2, hx.2, hm.2]
  have a' : p.lower - 1 < rnd x := by exact_mod_cast a
  have b' : rnd x < p.upper + 1 := by exact_mod_cast b
  omega

/-- An integer within the bounds belongs to the widened float range. -/
theorem mem_float (h : Inv p) {n : ℤ} (h0 : p.lower ≤ n) (h1 : n ≤ p.upper) :
    p.floatHp.lower ≤ n ∧ (n : ℝ) ≤ p.floatHp.upper := by
  have hm := margin_bounds
  have a : (p.lower : ℝ) ≤ n := by exact_mod_cast h0
  have b : (n : ℝ) ≤ p.upper := by exact_mod_cast h1
  rw [h.fl, h.fu]
  constructor <;> linarith [hm.1]

theorem setValue_ok (h : Inv p) {v : ℝ} (hv : (p.lower : ℝ) ≤ v ∧ v ≤ (p.upper : ℝ)) :
    p.setValue (some v) =
      ⟨{ p with floatHp := (p.floatHp.setValue (some ((rnd v : ℤ) : ℝ))).st, value := some (rnd v),
                normalized := some (p.valueToNormalized (rnd v)) }, false⟩ ∧
      p.lower ≤ rnd v ∧ rnd v ≤ p.upper := by
  have h0 : p.lower ≤ rnd v := le_rnd_of_le hv.1
  have h1 : rnd v ≤ p.upper := rnd_le_of_le hv.2
  obtain ⟨s1, _⟩ := h.finv.setValue_ok (h.mem_float h0 h1)
  refine ⟨?_, h0, h1⟩
  unfold IntParam.setValue
  simp only
  rw [if_neg (not_not.mpr hv), s1]
  simp

end Inv

theorem setValue_fields (p : FloatParam) (v : Option ℝ) :
    (p.setValue v).st.lower = p.lower ∧ (p.setValue v).st.upper = p.upper ∧
      (p.setValue v).st.log = p.log := by
  unfold FloatParam.setValue
  cases v with
  | none => simp
  | some v => simp only; split_ifs <;> simp

theorem setDefault_fields (p : FloatParam) (v : Option ℝ) :
    (p.setDefault v).st.lower = p.lower ∧ (p.setDefault v).st.upper = p.upper ∧
      (p.setDefault v).st.log = p.log := by
  unfold FloatParam.setDefault
  cases v with
  | none => simp
  | some v => simp only; split_ifs <;> simp

theorem setValue_inv {p : IntParam} (h : Inv p) (v : Option ℝ) : Inv (p.setValue v).st := by
  cases v with
  | none =>
    obtain ⟨a, b, c⟩ := setValue_fields p.floatHp none
    exact ⟨h.lt, h.pos, a.trans h.fl, b.trans h.fu, c.trans h.flog,
      FloatParam.setValue_inv h.finv none⟩
  | some v =>
    by_cases hv : (p.lower : ℝ) ≤ v ∧ v ≤ (p.upper : ℝ)
    · rw [(h.setValue_ok hv).1]
      obtain ⟨a, b, c⟩ := setValue_fields p.floatHp (some ((rnd v : ℤ) : ℝ))
      exact ⟨h.lt, h.pos, a.trans h.fl, b.trans h.fu, c.trans h.flog,
        FloatParam.setValue_inv h.finv _⟩
    · unfold IntParam.setValue
      simp only
      rw [if_pos hv]
      exact h

theorem setDefault_inv {p : IntParam} (h : Inv p) (v : Option ℝ) : Inv (p.setDefault v).st := by
  cases v with
  | none =>
    obtain ⟨a, b, c⟩ := setDefault_fields p.floatHp none
    exact ⟨h.lt, h.pos, a.trans h.fl, b.trans h.fu, c.trans h.flog,
      FloatParam.setDefault_inv h.finv none⟩
  | some v =>
    obtain ⟨a, b, c⟩ := setDefault_fields p.floatHp (some ((rnd v : ℤ) : ℝ))
    exact ⟨h.lt, h.pos, a.trans h.fl, b.trans h.fu, c.trans h.flog,
      FloatParam.setDefault_inv h.finv _⟩

theorem Used.inv {p : IntParam} (h : Used p) : Inv p := by
  induction h with
  | make h => exact (make_inv h).1
  | setValue v _ ih => exact setValue_inv ih v
  | setDefault v _ ih => exact setDefault_inv ih v
  | loadFrom v _ ih => exact ⟨ih.lt, ih.pos, ih.fl, ih.fu, ih.flog, ih.finv⟩
  | setConfidence s _ ih =>
    cases s with
    | none => exact ih
    | some s => exact ⟨ih.lt, ih.pos, ih.fl, ih.fu, ih.flog, ih.finv.score s⟩

/-- A copy of an integer parameter, when it can be made, has the same bounds and value and a legal
value. -/
theorem clone_some {p q : IntParam} (hq : p.clone = some q) :
    Inv q ∧ q.lower = p.lower ∧ q.upper = p.upper ∧ q.value = p.value ∧
      ∀ v, q.value = some v → p.lower ≤ v ∧ v ≤ p.upper := by
  unfold clone at hq
  rw [Option.bind_eq_bind, Option.bind_eq_some_iff] at hq
  obtain ⟨r, hr, hq⟩ := hq
  obtain ⟨ri, e1, e2, e3, _⟩ := make_inv hr
  rw [rnd_intCast] at e1 e2
  cases hv : p.value with
  | none =>
    rw [hv] at hq
    simp only [Option.pure_def, Option.some.injEq] at hq
    subst hq
    exact ⟨ri, e1, e2, e3, by simp [e3]⟩
  | some v =>
    rw [hv] at hq
    simp only at hq
    split_ifs at hq with hra
    simp only [Option.pure_def, Option.some.injEq] at hq
    by_cases hb : (r.lower : ℝ) ≤ (v : ℝ) ∧ (v : ℝ) ≤ (r.upper : ℝ)
    · have hok := ri.setValue_ok hb
      rw [hok.1] at hq
      have hinv := setValue_inv ri (some (v : ℝ))
      rw [hok.1] at hinv
      subst hq
      simp only [rnd_intCast] at hinv hok ⊢
      rw [e1, e2] at hok
      refine ⟨hinv, e1, e2, by trivial, ?_⟩
      intro w hw
      simp only [Option.some.injEq] at hw
      subst hw
      exact hok.2
    · exfalso
      unfold IntParam.setValue at hra
      simp only [if_pos hb] at hra
      exact hra trivial

/-- A parameter with a legal default and a legal value can be copied. -/
theorem clone_total {p : IntParam} (h : Inv p)
    (hd : ∀ x, p.dflt = some x → p.lower ≤ x ∧ x ≤ p.upper)
    (hv : ∀ x, p.value = some x → p.lower ≤ x ∧ x ≤ p.upper) : ∃ q, p.clone = some q := by
  obtain ⟨f, hf, hm⟩ := make_some (s := p.choice) (fid := p.isFidelity) h.lt h.pos hd
  unfold clone
  rw [hm]
  simp only [Option.bind_eq_bind, Option.bind_some]
  cases hval : p.value with
  | none => exact ⟨_, rfl⟩
  | some v =>
    have hi := (make_inv hm).1
    have hb := hv v hval
    have := (hi.setValue_ok (v := (v : ℝ)) ⟨by simp only; exact_mod_cast hb.1,
      by simp only; exact_mod_cast hb.2⟩).1
    simp only [this]
    exact ⟨_, rfl⟩

theorem neighbours_mem {p : IntParam} (h : Inv p) (k : ℕ) (draws : List ℝ)
    (ns : List IntParam) (hn : p.neighbours k draws = some ns) :
    ns.length = k ∧ ∀ q ∈ ns, Inv q ∧ q.lower = p.lower ∧ q.upper = p.upper ∧
      ∃ v, q.value = some v ∧ p.lower ≤ v ∧ v ≤ p.upper ∧ p.value ≠ some v := by
  induction draws generalizing k ns with
  | nil =>
    cases k with
    | zero =>
      simp only [neighbours, Option.some.injEq] at hn
      subst hn
      simp
    | succ k => simp [neighbours] at hn
  | cons n draws ih =>
    cases k with
    | zero =>
      simp only [neighbours, Option.some.injEq] at hn
      subst hn
      simp
    | succ k =>
      unfold neighbours at hn
      split_ifs at hn with hc hne
      · exact ih _ _ hn
      · exact ih _ _ hn
      · push Not at hc
        have hm := h.rnd_mem (h.finv.normalizedToValue_mem hc.1 hc.2)
        change p.lower ≤ p.normalizedToValue n ∧ p.normalizedToValue n ≤ p.upper at hm
        rw [Option.bind_eq_bind, Option.bind_eq_some_iff] at hn
        obtain ⟨q, hq, hn⟩ := hn
        obtain ⟨qi, q1, q2, _, _⟩ := clone_some hq
        have hb : (q.lower : ℝ) ≤ (p.normalizedToValue n : ℝ) ∧
            (p.normalizedToValue n : ℝ) ≤ (q.upper : ℝ) := by
          rw [q1, q2]; exact ⟨by exact_mod_cast hm.1, by exact_mod_cast hm.2⟩
        have hok := qi.setValue_ok hb
        have hsi := setValue_inv qi (some (p.normalizedToValue n : ℝ))
        rw [hok.1] at hn hsi
        simp only [Bool.false_eq_true, if_false] at hn
        rw [Option.bind_eq_bind, Option.bind_eq_some_iff] at hn
        obtain ⟨rest, hr, he⟩ := hn
        simp only [Option.pure_def, Option.some.injEq] at he
        subst he
        obtain ⟨hl, hqs⟩ := ih _ _ hr
        refine ⟨by simp [hl], ?_⟩
        intro q' hqm
        rcases List.mem_cons.mp hqm with rfl | hqm
        · refine ⟨hsi, q1, q2, p.normalizedToValue n, by simp, hm.1, hm.2, ?_⟩
          intro he
          exact hne he.symm
        · exact hqs q' hqm

end IntParam

/-! ## Categorical parameters -/

theorem mapM_some {α β : Type*} {f : α → Option β} {l : List α} {m : List β}
    (h : l.mapM f = some m) : m.length = l.length ∧ ∀ b ∈ m, ∃ a ∈ l, f a = some b := by
  induction l generalizing m with
  | nil =>
    simp only [List.mapM_nil, Option.pure_def, Option.some.injEq] at h
    subst h
    simp
  | cons a l ih =>
    rw [List.mapM_cons] at h
    simp only [Option.bind_eq_bind] at h
    rw [Option.bind_eq_some_iff] at h
    obtain ⟨b, hb, h⟩ := h
    rw [Option.bind_eq_some_iff] at h
    obtain ⟨bs, hbs, h⟩ := h
    simp only [Option.pure_def, Option.some.injEq] at h
    subst h
    obtain ⟨h1, h2⟩ := ih hbs
    refine ⟨by simp [h1], ?_⟩
    intro c hc
    rcases List.mem_cons.mp hc with rfl | hc
    · exact ⟨a, by simp, hb⟩
    · obtain ⟨x, hx, hf⟩ := h2 c hc
      exact ⟨x, by simp [hx], hf⟩

namespace CatParam

variable {α : Type*} [DecidableEq α]

theorem index_some {choices : List α} {v : α} (h : v ∈ choices) :
    ∃ i, index choices v = some i ∧ choices[i]? = some v := by
  unfold index
  cases hf : choices.findIdx? (fun c => decide (c = v)) with
  | none =>
    rw [List.findIdx?_eq_none_iff] at hf
    have := hf v h
    simp at this
  | some i =>
    rw [List.findIdx?_eq_some_iff_getElem] at hf
    obtain ⟨hi, he, _⟩ := hf
    refine ⟨i, rfl, ?_⟩
    rw [List.getElem?_eq_getElem hi]
    simpa using he

theorem index_none {choices : List α} {v : α} (h : v ∉ choices) : index choices v = none := by
  unfold index
  rw [List.findIdx?_eq_none_iff]
  intro c hc
  simp only [decide_eq_false_iff_not]
  rintro rfl
  exact h hc

theorem make_some {choices : List α} {d : Option α} {s : ℕ} {p : CatParam α}
    (h : CatParam.make choices d s = some p) :
    p.choices = choices ∧ p.dflt = d ∧ p.score = s ∧ p.value = none ∧ p.valueIndex = none ∧
      choices.Nodup ∧ 2 ≤ choices.length ∧ (∀ x, d = some x → x ∈ choices) ∧
      p.dfltIndex = d.bind (index choices) ∧ p.hasPrior = d.isSome := by
  unfold CatParam.make at h
  split_ifs at h with h1 h2
  cases d with
  | none =>
    simp only [Option.some.injEq] at h
    subst h
    exact ⟨rfl, rfl, rfl, rfl, rfl, h2, by omega, by simp, rfl, rfl⟩
  | some d =>
    simp only at h
    split_ifs at h with h3
    simp only [Option.some.injEq] at h
    subst h
    exact ⟨rfl, rfl, rfl, rfl, rfl, h2, by omega, by simpa using h3, rfl, rfl⟩

theorem setValue_mem {p : CatParam α} {v : α} (h : v ∈ p.choices) :
    ∃ i, index p.choices v = some i ∧
      p.setValue (some v) = ⟨{ p with value := some v, valueIndex := some i }, false⟩ := by
  obtain ⟨i, hi, _⟩ := index_some h
  exact ⟨i, hi, by simp [CatParam.setValue, hi]⟩

theorem setValue_not_mem {p : CatParam α} {v : α} (h : v ∉ p.choices) :
    p.setValue (some v) = ⟨{ p with value := some v }, true⟩ := by
  simp [CatParam.setValue, index_none h]

/-- A copy that can be made has the same choices and a legal value. -/
theorem clone_some {p q : CatParam α} (h : p.clone = some q) :
    q.choices = p.choices ∧ q.value = p.value ∧ p.choices.Nodup ∧ 2 ≤ p.choices.length ∧
      (∀ v, q.value = some v → v ∈ p.choices) := by
  unfold clone at h
  rw [Option.bind_eq_bind, Option.bind_eq_some_iff] at h
  obtain ⟨r, hr, h⟩ := h
  obtain ⟨e1, _, _, e4, _, e6, e7, _⟩ := make_some hr
  cases hv : p.value with
  | none =>
    rw [hv] at h
    simp only [Option.pure_def, Option.some.injEq] at h
    subst h
    exact ⟨e1, e4, e6, e7, by simp [e4]⟩
  | some v =>
    rw [hv] at h
    simp only at h
    by_cases hm : v ∈ r.choices
    · obtain ⟨i, hi, hs⟩ := setValue_mem hm
      rw [hs] at h
      simp only [Bool.false_eq_true, if_false, Option.pure_def, Option.some.injEq] at h
      subst h
      refine ⟨e1, rfl, e6, e7, ?_⟩
      intro w hw
      simp only [Option.some.injEq] at hw
      subst hw
      rw [← e1]; exact hm
    · rw [setValue_not_mem hm] at h
      simp at h

/-- A categorical parameter some program can hold. -/
inductive Used : CatParam α → Prop where
  | make {c : List α} {d : Option α} {s : ℕ} {p : CatParam α} :
      CatParam.make c d s = some p → Used p
  | setValue {p : CatParam α} (v : Option α) : Used p → Used (p.setValue v).st
  | setDefault {p : CatParam α} (v : Option α) : Used p → Used (p.setDefault v).st
  | setConfidence {p : CatParam α} (s : Option ℕ) : Used p → Used (p.setConfidence s).st

/-- What the methods keep. -/
structure Inv (p : CatParam α) : Prop where
  nodup : p.choices.Nodup
  two : 2 ≤ p.choices.length
  dflt : ∀ x, p.dflt = some x → x ∈ p.choices
  dfltIndex : p.dfltIndex = p.dflt.bind (index p.choices)
  prior : p.hasPrior = p.dflt.isSome
  idx : ∀ i, p.valueIndex = some i → i < p.choices.length

theorem Used.inv {p : CatParam α} (h : Used p) : Inv p := by
  induction h with
  | make h =>
    obtain ⟨e1, e2, _, _, e5, e6, e7, e8, e9, e10⟩ := make_some h
    exact ⟨by rw [e1]; exact e6, by rw [e1]; exact e7, by rw [e1, e2]; exact e8,
      by rw [e1, e2]; exact e9, by rw [e2]; exact e10, by simp [e5]⟩
  | @setValue p v _ ih =>
    cases v with
    | none => exact ⟨ih.nodup, ih.two, ih.dflt, ih.dfltIndex, ih.prior, by simp [CatParam.setValue]⟩
    | some v =>
      by_cases hm : v ∈ p.choices
      · obtain ⟨i, hi, hs⟩ := setValue_mem hm
        obtain ⟨j, hj, hg⟩ := index_some hm
        rw [hi] at hj
        simp only [Option.some.injEq] at hj
        subst hj
        rw [hs]
        refine ⟨ih.nodup, ih.two, ih.dflt, ih.dfltIndex, ih.prior, ?_⟩
        intro k hk
        simp only [Option.some.injEq] at hk
        subst hk
        exact (List.getElem?_eq_some_iff.mp hg).1
      · rw [setValue_not_mem hm]
        exact ⟨ih.nodup, ih.two, ih.dflt, ih.dfltIndex, ih.prior, ih.idx⟩
  | @setDefault p v _ ih =>
    cases v with
    | none =>
      exact ⟨ih.nodup, ih.two, by simp [CatParam.setDefault], rfl, rfl, ih.idx⟩
    | some v =>
      unfold CatParam.setDefault
      simp only
      split_ifs with hm
      · exact ⟨ih.nodup, ih.two, by simpa using hm, rfl, rfl, ih.idx⟩
      · exact ih
  | setConfidence s _ ih =>
    cases s with
    | none => exact ih
    | some s => exact ⟨ih.nodup, ih.two, ih.dflt, ih.dfltIndex, ih.prior, ih.idx⟩

/-- A parameter that holds no illegal value can be copied. -/
theorem clone_total {p : CatParam α} (h : Inv p) (hv : ∀ v, p.value = some v → v ∈ p.choices) :
    ∃ q, p.clone = some q := by
  have hm : ∃ r, CatParam.make p.choices p.dflt p.choice = some r ∧ r.choices = p.choices := by
    unfold CatParam.make
    rw [if_neg (by have := h.two; omega), if_neg (not_not.mpr h.nodup)]
    cases hd : p.dflt with
    | none => exact ⟨_, rfl, rfl⟩
    | some d =>
      simp only
      rw [if_neg (not_not.mpr (h.dflt d hd))]
      exact ⟨_, rfl, rfl⟩
  obtain ⟨r, hr, hc⟩ := hm
  unfold clone
  rw [hr]
  simp only [Option.bind_eq_bind, Option.bind_some]
  cases hval : p.value with
  | none => exact ⟨_, rfl⟩
  | some v =>
    obtain ⟨i, _, hs⟩ := setValue_mem (p := r) (v := v) (by rw [hc]; exact hv v hval)
    simp only [hs]
    exact ⟨_, rfl⟩

end CatParam

end Verif.Space
