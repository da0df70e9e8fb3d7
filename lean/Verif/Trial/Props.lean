import Verif.Trial.Spec
import Verif.Trial.Files

/-!
# C17 – C20, C50: results and trial files
-/

namespace Neps

/-! ### C19: interpretation of the user's return value -/

theorem floats_ok_iff (fs : String → Option PyFloat) (vs : List PyVal) (xs : List PyFloat) :
    floats fs vs = .ok xs ↔ List.Forall₂ (IsFloat fs) vs xs := by
  induction vs generalizing xs with
  | nil => simp [floats, eq_comm]
  | cons v vs ih =>
    simp only [floats, List.forall₂_cons_left_iff, IsFloat]
    cases hv : v.toFloat fs with
    | error e => simp
    | ok x =>
      cases hvs : floats fs vs with
      | error e =>
        simp only [reduceCtorEq, false_iff]
        rintro ⟨b, u, -, h, -⟩
        rw [← ih] at h
        simp [hvs] at h
      | ok ys =>
        simp only [Except.ok.injEq]
        constructor
        · rintro rfl
          exact ⟨x, ys, rfl, (ih ys).1 hvs, rfl⟩
        · rintro ⟨b, u, hb, hu, rfl⟩
          rw [← ih, hvs] at hu
          simp only [Except.ok.injEq] at hu
          rw [hb, hu]

theorem floats_float (fs : String → Option PyFloat) (l : List PyFloat) :
    floats fs (l.map .float) = .ok l := by
  induction l with
  | nil => rfl
  | cons x l ih => simp [floats, PyVal.toFloat, ih]

theorem checkFloat_ok_iff (fs : String → Option PyFloat) (v : PyVal) (x : PyFloat) :
    checkFloat fs v = .ok x ↔ IsFloat fs v x := by
  unfold checkFloat IsFloat
  split <;> simp_all

theorem parseCost_ok_iff (fs : String → Option PyFloat) (cost : PyVal) (c : Option PyFloat) :
    parseCost fs cost = .ok c ↔
      (if cost = .none then c = none else ∃ x, IsFloat fs cost x ∧ c = some x) := by
  by_cases hn : cost = .none
  · subst hn; simp [parseCost, eq_comm]
  · have : parseCost fs cost = (checkFloat fs cost).map some := by
      cases cost <;> first | exact absurd rfl hn | rfl
    rw [this]
    simp only [hn, if_false]
    cases hcf : checkFloat fs cost with
    | error e =>
      simp only [Except.map, reduceCtorEq, false_iff]
      rintro ⟨x, hx, -⟩
      rw [← checkFloat_ok_iff] at hx
      simp [hcf] at hx
    | ok y =>
      simp only [Except.map, Except.ok.injEq]
      constructor
      · rintro rfl; exact ⟨y, (checkFloat_ok_iff _ _ _).1 hcf, rfl⟩
      · rintro ⟨x, hx, rfl⟩
        rw [← checkFloat_ok_iff, hcf] at hx
        simp only [Except.ok.injEq] at hx
        rw [hx]

theorem parseCurve_ok_iff (fs : String → Option PyFloat) (lc : PyVal)
    (c : Option (List PyFloat)) :
    parseCurve fs lc = .ok c ↔
      (if lc = .none then c = none else ∃ xs, AreFloats fs lc xs ∧ c = some xs) := by
  by_cases hn : lc = .none
  · subst hn; simp [parseCurve, eq_comm]
  · have : parseCurve fs lc = (match lc.iter with
        | .error e => .error e
        | .ok vs => (floats fs vs).map some) := by
      cases lc <;> first | exact absurd rfl hn | rfl
    rw [this]
    simp only [hn, if_false]
    cases hit : lc.iter with
    | error e =>
      simp only [reduceCtorEq, false_iff]
      rintro ⟨xs, ⟨vs, hvs, -⟩, -⟩
      simp [hit] at hvs
    | ok vs =>
      cases hfl : floats fs vs with
      | error e =>
        simp only [hfl, Except.map, reduceCtorEq, false_iff]
        rintro ⟨xs, ⟨vs', hvs, hf⟩, -⟩
        rw [hit] at hvs
        simp only [Except.ok.injEq] at hvs
        subst hvs
        rw [← floats_ok_iff, hfl] at hf
        simp at hf
      | ok ys =>
        simp only [hfl, Except.map, Except.ok.injEq]
        constructor
        · rintro rfl
          exact ⟨ys, ⟨vs, hit, (floats_ok_iff _ _ _).1 hfl⟩, rfl⟩
        · rintro ⟨xs, ⟨vs', hvs, hf⟩, rfl⟩
          rw [hit] at hvs
          simp only [Except.ok.injEq] at hvs
          subst hvs
          rw [← floats_ok_iff, hfl] at hf
          simp only [Except.ok.injEq] at hf
          rw [hf]

/-- `parseFinish` succeeds exactly as specified. -/
theorem parseFinish_ok_iff (fs : String → Option PyFloat) (loss cost lc : PyVal)
    (extra : List (String × PyVal)) (p : Parsed) :
    parseFinish fs loss cost lc extra = .ok p ↔
      IsFloat fs loss p.loss ∧
      (if cost = .none then p.cost = none else ∃ x, IsFloat fs cost x ∧ p.cost = some x) ∧
      (if lc = .none then p.learningCurve = none
        else ∃ xs, AreFloats fs lc xs ∧ p.learningCurve = some xs) ∧
      p.extra = extra := by
  obtain ⟨pl, pc, pk, pe⟩ := p
  rw [← parseCost_ok_iff, ← parseCurve_ok_iff, ← checkFloat_ok_iff]
  unfold parseFinish
  cases checkFloat fs loss <;> cases parseCost fs cost <;> cases parseCurve fs lc <;>
    simp [eq_comm]

/-- **C19, numbers.** A returned value that is not a mapping succeeds exactly if it has a float
value; this is the loss, with the configured defaults for cost and learning curve and nothing
extra. -/
theorem C19_number_result (fs : String → Option PyFloat) (v : PyVal) (hv : ∀ d, v ≠ .dict d)
    (dc : Option PyFloat) (dl : DefaultLC) (p : Parsed) :
    parseUserResult fs v dc dl = .ok p ↔
      IsFloat fs v p.loss ∧ p.cost = dc ∧ IsDefaultCurve dl p.loss p.learningCurve ∧
      p.extra = [] := by
  have key : parseUserResult fs v dc dl =
      parseFinish fs v (optFloatVal dc) (match dl with
      | .none => .none
      | .loss => .list [v]
      | .list l => .list (l.map .float)) [] := by
    cases v <;> first | rfl | exact absurd rfl (hv _)
  rw [key, parseFinish_ok_iff]
  have hcost : (if optFloatVal dc = .none then p.cost = none
      else ∃ x, IsFloat fs (optFloatVal dc) x ∧ p.cost = some x) ↔ p.cost = dc := by
    cases dc with
    | none => simp [optFloatVal]
    | some x => simp [optFloatVal, IsFloat, PyVal.toFloat]
  rw [hcost]
  constructor
  · rintro ⟨h1, h2, h3, h4⟩
    refine ⟨h1, h2, ?_, h4⟩
    cases dl with
    | none => simpa [IsDefaultCurve] using h3
    | loss =>
      simp only [reduceCtorEq, if_false] at h3
      obtain ⟨xs, ⟨vs, hvs, hf⟩, hp⟩ := h3
      simp only [PyVal.iter, Except.ok.injEq] at hvs
      subst hvs
      rw [List.forall₂_cons_left_iff] at hf
      obtain ⟨b, u, hb, hu, rfl⟩ := hf
      simp only [List.forall₂_nil_left_iff] at hu
      subst hu
      unfold IsFloat at *
      rw [h1] at hb
      simp only [Except.ok.injEq] at hb
      subst hb
      exact hp
    | list l =>
      simp only [reduceCtorEq, if_false] at h3
      obtain ⟨xs, ⟨vs, hvs, hf⟩, hp⟩ := h3
      simp only [PyVal.iter, Except.ok.injEq] at hvs
      subst hvs
      rw [← floats_ok_iff, floats_float] at hf
      simp only [Except.ok.injEq] at hf
      subst hf
      exact hp
  · rintro ⟨h1, h2, h3, h4⟩
    refine ⟨h1, h2, ?_, h4⟩
    cases dl with
    | none => simpa [IsDefaultCurve] using h3
    | loss =>
      simp only [reduceCtorEq, if_false]
      exact ⟨[p.loss], ⟨[v], rfl, by simpa using h1⟩, h3⟩
    | list l =>
      simp only [reduceCtorEq, if_false]
      exact ⟨l, ⟨_, rfl, (floats_ok_iff _ _ _).1 (floats_float fs l)⟩, h3⟩

/-- **C19, errors for numbers.** A value without float value is a `ValueError`. -/
theorem C19_number_error (fs : String → Option PyFloat) (v : PyVal) (hv : ∀ d, v ≠ .dict d)
    (dc : Option PyFloat) (dl : DefaultLC) (h : ∀ x, ¬ IsFloat fs v x) :
    parseUserResult fs v dc dl = .error .valueError := by
  have key : parseUserResult fs v dc dl =
      parseFinish fs v (optFloatVal dc) (match dl with
      | .none => .none
      | .loss => .list [v]
      | .list l => .list (l.map .float)) [] := by
    cases v <;> first | rfl | exact absurd rfl (hv _)
  rw [key]
  unfold parseFinish checkFloat
  cases hx : v.toFloat fs with
  | ok x => exact absurd hx (h x)
  | error e => rfl

/-- **C19, a mapping without loss** is a `KeyError`. -/
theorem C19_mapping_without_loss (fs : String → Option PyFloat) (d : List (String × PyVal))
    (dc : Option PyFloat) (dl : DefaultLC) (h : "loss" ∉ Dict.keys d) :
    parseUserResult fs (.dict d) dc dl = .error .keyError := by
  rw [← Dict.get_eq_none_iff] at h
  simp [parseUserResult, h]

/-- **C19, mappings.** A returned mapping succeeds with result `p` exactly if it has a loss with a
float value, which is the loss of `p`; the cost and the learning curve of `p` are the ones meant
by the mapping or its defaults; and `extra` holds every other key unchanged, except that a
learning curve is taken out of `info_dict` when there is none at top level. -/
theorem C19_mapping_result (fs : String → Option PyFloat) (d : List (String × PyVal))
    (dc : Option PyFloat) (dl : DefaultLC) (p : Parsed)
    (h : parseUserResult fs (.dict d) dc dl = .ok p) :
    (∃ v, Dict.get d "loss" = some v ∧ IsFloat fs v p.loss) ∧
    IsCost fs d dc p.cost ∧ IsCurve fs d dl p.loss p.learningCurve ∧
    ∀ k, Dict.get p.extra k = expectedExtra d k := by
  simp only [parseUserResult] at h
  cases hl : Dict.get d "loss" with
  | none => simp [hl] at h
  | some lossV =>
    simp only [hl] at h
    have hcost' : Dict.get (Dict.erase d "loss") "cost" = Dict.get d "cost" := by
      simp [Dict.get_erase]
    have hlc' : Dict.get (Dict.erase (Dict.erase d "loss") "cost") "learning_curve" =
        Dict.get d "learning_curve" := by simp [Dict.get_erase]
    have hinfo' : Dict.get (Dict.erase (Dict.erase d "loss") "cost") "info_dict" =
        Dict.get d "info_dict" := by simp [Dict.get_erase]
    rw [hcost', hlc', hinfo'] at h
    split at h
    · simp at h
    · next lc extra heq =>
      rw [parseFinish_ok_iff] at h
      obtain ⟨h1, h2, h3, h4⟩ := h
      refine ⟨⟨lossV, rfl, h1⟩, ?_, ?_, ?_⟩
      · -- cost
        unfold IsCost
        cases hc : Dict.get d "cost" with
        | none =>
          rw [hc] at h2
          cases dc with
          | none => simpa [optFloatVal] using h2
          | some x => simpa [optFloatVal, IsFloat, PyVal.toFloat] using h2
        | some v =>
          rw [hc] at h2
          simp only [Option.getD_some] at h2
          by_cases hn : v = .none
          · subst hn; simpa using h2
          · simp only [hn, if_false] at h2
            cases v <;> first | exact absurd rfl hn | exact h2
      · -- curve
        have fin : ∀ v : PyVal, lc = v → v ≠ .none →
            (if v = .str "loss" then p.learningCurve = some [p.loss]
              else ∃ xs, AreFloats fs v xs ∧ p.learningCurve = some xs) := by
          rintro v rfl hne
          by_cases hs : lc = .str "loss"
          · simp only [hs, if_true] at h3 ⊢
            simp only [reduceCtorEq, if_false] at h3
            obtain ⟨xs, ⟨vs, hvs, hf⟩, hp⟩ := h3
            simp only [PyVal.iter, Except.ok.injEq] at hvs
            subst hvs
            rw [List.forall₂_cons_left_iff] at hf
            obtain ⟨b, u, hb, hu, rfl⟩ := hf
            simp only [List.forall₂_nil_left_iff] at hu
            subst hu
            unfold IsFloat at *
            rw [h1] at hb
            simp only [Except.ok.injEq] at hb
            subst hb
            exact hp
          · simp only [hs, if_false, hne] at h3 ⊢
            exact h3
        have dfl : lc = dl.toVal → IsDefaultCurve dl p.loss p.learningCurve := by
          intro hlc
          cases dl with
          | none =>
            simp only [DefaultLC.toVal] at hlc
            subst hlc
            simpa [IsDefaultCurve] using h3
          | loss =>
            have := fin _ hlc (by simp [DefaultLC.toVal])
            simpa [DefaultLC.toVal, IsDefaultCurve] using this
          | list l =>
            have := fin _ hlc (by simp [DefaultLC.toVal])
            simp only [DefaultLC.toVal, reduceCtorEq, if_false] at this
            obtain ⟨xs, ⟨vs, hvs, hf⟩, hp⟩ := this
            simp only [PyVal.iter, Except.ok.injEq] at hvs
            subst hvs
            rw [← floats_ok_iff, floats_float] at hf
            simp only [Except.ok.injEq] at hf
            subst hf
            exact hp
        have giv : ∀ v, lc = v →
            (match (some v : Option PyVal) with
            | none => IsDefaultCurve dl p.loss p.learningCurve
            | some .none => p.learningCurve = none
            | some v => if v = .str "loss" then p.learningCurve = some [p.loss]
                else ∃ xs, AreFloats fs v xs ∧ p.learningCurve = some xs) := by
          intro v hv
          by_cases hn : v = .none
          · subst hn hv
            simpa using h3
          · have := fin v hv hn
            cases v <;> first | exact absurd rfl hn | exact this
        unfold IsCurve givenCurve
        split at heq
        · next v hv =>
          simp only [Except.ok.injEq, Prod.mk.injEq] at heq
          rw [hv]
          exact giv v heq.1.symm
        · next hv =>
          rw [hv]
          simp only
          split at heq
          · next hi =>
            simp only [Except.ok.injEq, Prod.mk.injEq] at heq
            rw [hi]
            exact dfl heq.1.symm
          · next i hi =>
            simp only [Except.ok.injEq, Prod.mk.injEq] at heq
            rw [hi]
            simp only
            cases hg : Dict.get i "learning_curve" with
            | none => exact dfl (by rw [← heq.1, hg]; rfl)
            | some v => exact giv v (by rw [← heq.1, hg]; rfl)
          · simp at heq
          · simp at heq
      · -- extra
        intro k
        rw [h4]
        unfold expectedExtra
        split at heq
        · next v hv =>
          simp only [Except.ok.injEq, Prod.mk.injEq] at heq
          rw [← heq.2]
          simp only [Dict.get_erase, hv, reduceCtorEq, and_false, if_false]
          by_cases k1 : k = "learning_curve" <;> by_cases k2 : k = "cost" <;>
            by_cases k3 : k = "loss" <;> simp [k1, k2, k3]
        · next hv =>
          split at heq
          · next hi =>
            simp only [Except.ok.injEq, Prod.mk.injEq] at heq
            rw [← heq.2]
            simp only [Dict.get_erase, hv, hi, and_true]
            by_cases k1 : k = "learning_curve" <;> by_cases k2 : k = "cost" <;>
              by_cases k3 : k = "loss" <;> by_cases k4 : k = "info_dict" <;>
              simp [k1, k2, k3, k4, hv, hi]
          · next i hi =>
            simp only [Except.ok.injEq, Prod.mk.injEq] at heq
            rw [← heq.2]
            simp only [Dict.get_set, Dict.get_erase, hv, hi, and_true]
            by_cases k1 : k = "learning_curve" <;> by_cases k2 : k = "cost" <;>
              by_cases k3 : k = "loss" <;> by_cases k4 : k = "info_dict" <;>
              simp [k1, k2, k3, k4, hv]
          · simp at heq
          · simp at heq

/-- **C19, when a mapping is accepted.** A returned mapping is accepted exactly if it has a loss
with a float value, its cost makes sense, `info_dict` (if consulted) is a mapping, and its
learning curve makes sense. -/
theorem C19_mapping_accepted_iff (fs : String → Option PyFloat) (d : List (String × PyVal))
    (dc : Option PyFloat) (dl : DefaultLC) :
    (∃ p, parseUserResult fs (.dict d) dc dl = .ok p) ↔
      ∃ v x c k, Dict.get d "loss" = some v ∧ IsFloat fs v x ∧ IsCost fs d dc c ∧ InfoOk d ∧
        IsCurve fs d dl x k := by
  constructor
  · rintro ⟨p, hp⟩
    obtain ⟨⟨v, hv, hx⟩, hc, hk, -⟩ := C19_mapping_result fs d dc dl p hp
    refine ⟨v, p.loss, p.cost, p.learningCurve, hv, hx, hc, ?_, hk⟩
    intro hlc w hw
    have hlc' : Dict.get (Dict.erase (Dict.erase d "loss") "cost") "learning_curve" = none := by
      simpa [Dict.get_erase] using hlc
    have hinfo' : Dict.get (Dict.erase (Dict.erase d "loss") "cost") "info_dict" = some w := by
      simpa [Dict.get_erase] using hw
    simp only [parseUserResult, hv, hlc', hinfo'] at hp
    cases w <;> first | exact ⟨_, rfl⟩ | simp at hp
  · rintro ⟨v, x, c, k, hv, hx, hc, hi, hk⟩
    have hcost' : Dict.get (Dict.erase d "loss") "cost" = Dict.get d "cost" := by
      simp [Dict.get_erase]
    have hlc' : Dict.get (Dict.erase (Dict.erase d "loss") "cost") "learning_curve" =
        Dict.get d "learning_curve" := by simp [Dict.get_erase]
    have hinfo' : Dict.get (Dict.erase (Dict.erase d "loss") "cost") "info_dict" =
        Dict.get d "info_dict" := by simp [Dict.get_erase]
    have hcost : parseCost fs ((Dict.get d "cost").getD (optFloatVal dc)) = .ok c := by
      rw [parseCost_ok_iff]
      unfold IsCost at hc
      cases hg : Dict.get d "cost" with
      | none =>
        rw [hg] at hc
        cases dc with
        | none => simpa [optFloatVal] using hc
        | some y => simpa [optFloatVal, IsFloat, PyVal.toFloat] using hc
      | some w =>
        rw [hg] at hc
        by_cases hn : w = .none
        · subst hn; simpa using hc
        · simp only [Option.getD_some, hn, if_false]
          cases w <;> first | exact absurd rfl hn | exact hc
    -- any curve value that means `k` is parsed to `k`
    have curveG : ∀ w : PyVal, (match w with
        | .none => k = none
        | w => if w = .str "loss" then k = some [x] else ∃ xs, AreFloats fs w xs ∧ k = some xs) →
        parseCurve fs (if w = .str "loss" then .list [v] else w) = .ok k := by
      intro w hw
      rw [parseCurve_ok_iff]
      by_cases hs : w = .str "loss"
      · subst hs
        simp only [if_true] at hw ⊢
        simp only [reduceCtorEq, if_false]
        exact ⟨[x], ⟨[v], rfl, by simpa using hx⟩, hw⟩
      · simp only [hs, if_false]
        by_cases hn : w = .none
        · subst hn; simpa using hw
        · simp only [hn, if_false]
          cases w <;> first | exact absurd rfl hn | (simp only [hs, if_false] at hw; exact hw)
    have curveD : IsDefaultCurve dl x k →
        parseCurve fs (if dl.toVal = .str "loss" then .list [v] else dl.toVal) = .ok k := by
      intro h
      apply curveG
      cases dl with
      | none => simpa [DefaultLC.toVal, IsDefaultCurve] using h
      | loss => simpa [DefaultLC.toVal, IsDefaultCurve] using h
      | list l =>
        simp only [DefaultLC.toVal, reduceCtorEq, if_false]
        exact ⟨l, ⟨_, rfl, (floats_ok_iff _ _ _).1 (floats_float fs l)⟩, h⟩
    have fin : ∀ w extra, parseCurve fs (if w = .str "loss" then .list [v] else w) = .ok k →
        ∃ p, parseFinish fs v ((Dict.get d "cost").getD (optFloatVal dc))
          (if w = .str "loss" then .list [v] else w) extra = .ok p := by
      intro w extra hw
      refine ⟨⟨x, c, k, extra⟩, ?_⟩
      unfold parseFinish
      rw [(checkFloat_ok_iff fs v x).2 hx, hcost, hw]
    simp only [parseUserResult, hv, hcost', hlc', hinfo']
    unfold IsCurve givenCurve at hk
    cases hg : Dict.get d "learning_curve" with
    | some w =>
      rw [hg] at hk
      simp only at hk ⊢
      exact fin w _ (curveG w (by cases w <;> exact hk))
    | none =>
      rw [hg] at hk
      simp only at hk ⊢
      cases hgi : Dict.get d "info_dict" with
      | none =>
        rw [hgi] at hk
        exact fin _ _ (curveD hk)
      | some w =>
        obtain ⟨i, rfl⟩ := hi hg w hgi
        rw [hgi] at hk
        simp only at hk ⊢
        cases hl : Dict.get i "learning_curve" with
        | none =>
          rw [hl] at hk
          exact fin _ _ (curveD hk)
        | some u =>
          rw [hl] at hk
          exact fin u _ (curveG u (by cases u <;> exact hk))

/-- A mapping with all the features of C19 at once. -/
example (fs : String → Option PyFloat) :
    parseUserResult fs (.dict [("loss", .int 3), ("foo", .bool true),
      ("info_dict", .dict [("learning_curve", .list [.int 5, .float (.num 3)]), ("n", .int 1)])])
      (some (.num 2)) .loss =
    .ok ⟨.num 3, some (.num 2), some [.num 5, .num 3],
      [("foo", .bool true), ("info_dict", .dict [("n", .int 1)])]⟩ := by
  rfl

example (fs : String → Option PyFloat) :
    parseUserResult fs (.float (.num (1 / 2))) (some (.num 2)) .loss =
    .ok ⟨.num (1 / 2), some (.num 2), some [.num (1 / 2)], []⟩ := by rfl

/-! ### C20: exceptions in the objective -/

/-- **C20, the raising case.** For every exception, evaluating the trial returns: the trial is
marked `CRASHED`, and the report carries the exception, its traceback, and exactly the configured
error values. -/
theorem C20_exception_is_recorded (fs : String → Option PyFloat) (t : Trial)
    (dv : DefaultReportValues) (e : Exc) (tb : String) (te du : PyFloat) :
    ∃ t' r, evalTrial fs t dv (.raised e tb) te du = .ok (t', r) ∧
      t'.state = .crashed ∧ t'.config = t.config ∧ t'.id = t.id ∧ t'.report = t.report ∧
      r.err = some e ∧ r.tb = some tb ∧ r.loss = dv.lossValueOnError ∧
      r.cost = dv.costValueOnError ∧ r.learningCurve = dv.learningCurveOnError ∧
      r.extra = [] ∧ r.trialId = t.id ∧ r.reportedAs = .crashed :=
  ⟨_, _, rfl, rfl, rfl, rfl, rfl, rfl, rfl, rfl, rfl, rfl, rfl, rfl, rfl⟩

/-- **C20, the returning case.** If the returned value can be interpreted (C19), evaluating the trial
returns: the trial is marked `SUCCESS` and the report carries the interpreted values and no
error. -/
theorem C20_result_is_recorded (fs : String → Option PyFloat) (t : Trial)
    (dv : DefaultReportValues) (v : PyVal) (p : Parsed) (te du : PyFloat)
    (h : parseUserResult fs v dv.costIfNotProvided dv.learningCurveIfNotProvided = .ok p) :
    ∃ t' r, evalTrial fs t dv (.returned v) te du = .ok (t', r) ∧
      t'.state = .success ∧ t'.config = t.config ∧ t'.id = t.id ∧ t'.report = t.report ∧
      r.err = none ∧ r.loss = some p.loss ∧ r.cost = p.cost ∧
      r.learningCurve = p.learningCurve ∧ r.extra = p.extra ∧ r.trialId = t.id ∧
      r.reportedAs = .success := by
  refine ⟨(t.setComplete .success te (some p.loss) p.cost p.learningCurve none none
    (some p.extra) (some du)).1, (t.setComplete .success te (some p.loss) p.cost p.learningCurve
    none none (some p.extra) (some du)).2, ?_, rfl, rfl, rfl, rfl, rfl, rfl, rfl, rfl, rfl, rfl,
    rfl⟩
  simp only [evalTrial, h]

/-- **C20 fails** for results the interpreter rejects: a mapping without `loss` makes the evaluation
raise instead of returning a report, for every trial and all settings. -/
theorem C20_malformed_result_fails (fs : String → Option PyFloat) (t : Trial)
    (dv : DefaultReportValues) (d : List (String × PyVal)) (te du : PyFloat)
    (h : "loss" ∉ Dict.keys d) :
    evalTrial fs t dv (.returned (.dict d)) te du = .error .keyError := by
  simp only [evalTrial, C19_mapping_without_loss fs d _ _ h]

example : "loss" ∉ Dict.keys [("accuracy", PyVal.int 1)] := by decide

/-! ### C17: trial directory round trip -/

theorem toFile?_toReport (r : Report) (h : ∀ e, r.err = some e → e.copyable = true) :
    ∃ f, r.toFile? = some f ∧
      f.toReport = { r with err := r.err.map (fun e => { cls := "Exception", msg := e.msg }) } := by
  unfold Report.toFile?
  have : (r.err.map Exc.copyable).getD true = true := by
    cases he : r.err with
    | none => rfl
    | some e => simpa using h e he
  rw [this]
  refine ⟨_, rfl, ?_⟩
  simp only [ReportFile.toReport, Option.map_map]
  rfl

/-- **C17, one write.** Writing a storable trial into its directory succeeds, and reading the
directory back gives the trial (with exceptions reduced to their message), whatever the
directory held before, provided a report already on disk is not dropped. -/
theorem C17_write_read (t : Trial) (d : TrialDir) (ht : t.Storable)
    (hr : d.report.isSome → t.report.isSome) :
    (writeTrial t d).2 = none ∧ readTrial (writeTrial t d).1 = some t.recovered := by
  obtain ⟨hc, hrep⟩ := ht
  obtain ⟨cfg, md, st, rep⟩ := t
  cases rep with
  | none =>
    have hd : d.report = none := by
      cases h : d.report with
      | none => rfl
      | some r => simp [h] at hr
    cases hp : md.previousTrialId <;>
      simp_all [writeTrial, writeOps, runOps, opConfig, opMetadata, opState, opPrev, readTrial,
        Trial.recovered]
  | some r =>
    obtain ⟨hx, he⟩ := hrep r rfl
    obtain ⟨f, hf, hfr⟩ := toFile?_toReport r he
    cases hp : md.previousTrialId <;>
      simp_all [writeTrial, writeOps, runOps, opConfig, opMetadata, opState, opPrev, opReport,
        readTrial, Trial.recovered]

/-- What is recovered equals the original under the code's own comparison of reports, and is
identical to the original if there is no exception in it. -/
theorem C17_recovered_equal (t : Trial) :
    t.recovered.config = t.config ∧ t.recovered.metadata = t.metadata ∧
    t.recovered.state = t.state ∧
    (∀ r, t.report = some r → ∃ r', t.recovered.report = some r' ∧ r.pyEq r' = true ∧
      r'.pyEq r = true) ∧
    (t.report = none → t.recovered.report = none) ∧
    ((∀ r, t.report = some r → r.err = none) → t.recovered = t) := by
  have refl : ∀ v : Option PyFloat, eqLossField v v = true := by
    intro v
    cases v with
    | none => simp [eqLossField]
    | some x => cases h : x.isNan <;> simp [eqLossField, h]
  refine ⟨rfl, rfl, rfl, ?_, ?_, ?_⟩
  · intro r hr
    refine ⟨_, by simp [Trial.recovered, hr]; rfl, ?_, ?_⟩ <;>
      simp [Report.pyEq, refl] <;> cases r.err <;> rfl
  · intro h; simp [Trial.recovered, h]
  · intro h
    obtain ⟨cfg, md, st, rep⟩ := t
    cases rep with
    | none => rfl
    | some r =>
      have := h r rfl
      cases r
      simp_all [Trial.recovered]

/-- The directory has a report only if one of the written versions had one. -/
theorem writeTrial_report (t : Trial) (d : TrialDir) :
    (writeTrial t d).1.report.isSome → d.report.isSome ∨ t.report.isSome := by
  obtain ⟨cfg, md, st, rep⟩ := t
  cases rep with
  | some r => simp
  | none =>
    cases hp : md.previousTrialId <;> cases hc : dumpableDict cfg <;>
      simp_all [writeTrial, writeOps, runOps, opConfig, opMetadata, opState, opPrev]

/-- **C17, histories.** Write any number of versions of a trial one after the other into a fresh
directory, never dropping a report: reading gives the last version. -/
theorem C17_write_history_read (ts : List Trial) (t : Trial)
    (hs : ∀ u ∈ ts ++ [t], u.Storable)
    (hmono : ∀ u ∈ ts, u.report.isSome → t.report.isSome) :
    readTrial (writeAll (ts ++ [t]) {}) = some t.recovered := by
  have key : ∀ (ts : List Trial) (d : TrialDir), (writeAll ts d).report.isSome →
      d.report.isSome ∨ ∃ u ∈ ts, u.report.isSome := by
    intro ts
    induction ts with
    | nil => intro d h; exact Or.inl h
    | cons u ts ih =>
      intro d h
      rcases ih _ h with h | ⟨v, hv, hv'⟩
      · rcases writeTrial_report u d h with h | h
        · exact Or.inl h
        · exact Or.inr ⟨u, by simp, h⟩
      · exact Or.inr ⟨v, by simp [hv], hv'⟩
  simp only [writeAll, List.foldl_append, List.foldl_cons, List.foldl_nil]
  refine (C17_write_read t _ (hs t (by simp)) ?_).2
  intro h
  rcases key ts {} h with h | ⟨u, hu, hu'⟩
  · simp at h
  · exact hmono u hu hu'

/-- A concrete trial used in the examples below. -/
def exampleTrial : Trial :=
  (Trial.new "3_1" [("lr", .float (.num 7))] "/configs/config_3_1" (some "3_0") none
    (.num 17) "w").setEvaluating (.num 18) "w"

/-- Its report. -/
def exampleReport : Report :=
  { trialId := "3_1", loss := some .nan, cost := none, learningCurve := some [.num 1],
    extra := [("info_dict", .dict [])], err := some { cls := "ZeroDivisionError", msg := "boom" },
    tb := some "tb", reportedAs := .crashed, evaluationDuration := some (.num 2) }

/-- The hypotheses of the history theorem hold for pending, evaluating, crashed versions of a
trial with a predecessor, an exception and a NaN loss. -/
example :
    let t₀ := Trial.new "3_1" [("lr", .float (.num 7))] "/configs/config_3_1" (some "3_0")
      none (.num 17) "w"
    let t₂ : Trial := { exampleTrial with state := .crashed, report := some exampleReport }
    (∀ u ∈ [t₀, exampleTrial] ++ [t₂], u.Storable) ∧
    (∀ u ∈ [t₀, exampleTrial], u.report.isSome → t₂.report.isSome) ∧
    readTrial (writeAll ([t₀, exampleTrial] ++ [t₂]) {}) = some t₂.recovered := by
  refine ⟨?_, by simp, by decide⟩
  intro u hu
  simp only [List.cons_append, List.nil_append, List.mem_cons, List.not_mem_nil, or_false] at hu
  rcases hu with rfl | rfl | rfl
  · exact ⟨by decide, by simp [Trial.new]⟩
  · exact ⟨by decide, by simp [exampleTrial, Trial.new, Trial.setEvaluating]⟩
  · refine ⟨by decide, ?_⟩
    rintro r hr
    simp only [Option.some.injEq] at hr
    subst hr
    exact ⟨by decide, by simp [exampleReport]⟩

/-- **C17 fails** without the side condition: a version without report written over one with a
report reads back with the old report, because the report file is never deleted. -/
theorem C17_dropped_report_fails :
    let t₁ : Trial := { exampleTrial with report := some exampleReport }
    let t₂ : Trial := { exampleTrial with report := none }
    t₂.Storable ∧ t₁.Storable ∧ readTrial (writeAll [t₁, t₂] {}) ≠ some t₂.recovered := by
  refine ⟨⟨by decide, by simp⟩, ⟨by decide, ?_⟩, by decide⟩
  rintro r hr
  simp only [Option.some.injEq] at hr
  subst hr
  exact ⟨by decide, by simp [exampleReport]⟩

end Neps
