import Verif.Space.DomainLemmas

/-!
# Properties of domains: C29 (casts stay in bounds) and C30 (round trips)
-/

namespace Verif.Space

open Domain

/-! ## Concrete domains, used to show that the hypotheses can be met -/

theorem declared_floating {l u : ℝ} (h : l < u) :
    ∃ d, floating l u = some d ∧ Declared d := by
  refine ⟨⟨l, u, false, false, none, none, false⟩, ?_, ?_, h, by simp⟩
  · simp [floating, mkLogBounds, make]
  · exact ⟨l, u, false, none, false, Or.inl (by simp [floating, mkLogBounds, make]), by simp⟩

theorem declared_log {l u : ℝ} (h0 : 0 < l) (h : l < u) :
    ∃ d, floating l u true = some d ∧ Declared d ∧
      d.logBounds = some (Real.log l, Real.log u) := by
  have hu : 0 < u := lt_trans h0 h
  refine ⟨⟨l, u, false, false, some (Real.log l, Real.log u), none, false⟩, ?_, ⟨?_, h, ?_⟩, rfl⟩
  · simp [floating, mkLogBounds, flog, h0, hu, make]
  · exact ⟨l, u, true, none, false,
      Or.inl (by simp [floating, mkLogBounds, flog, h0, hu, make]), by simp⟩
  · intro _; exact h0

theorem declared_integer {l u : ℤ} (h : l < u) :
    ∃ d, integer (l : ℝ) (u : ℝ) = some d ∧ Declared d := by
  refine ⟨⟨(l : ℝ), (u : ℝ), true, true, none, none, false⟩, ?_, ?_,
    (by simp only; exact_mod_cast h), by simp⟩
  · simp [integer, mkLogBounds, make, rnd_intCast, Domain.card, card.byRound]
  · exact ⟨l, u, false, none, false,
      Or.inr (by simp [integer, mkLogBounds, make, rnd_intCast, Domain.card, card.byRound]),
      by simp⟩

theorem declared_unitFloat : Declared unitFloat := by
  refine ⟨⟨0, 1, false, none, false, Or.inl ?_, by simp⟩, by norm_num [unitFloat],
    by simp [unitFloat]⟩
  simp [floating, mkLogBounds, make, unitFloat]

/-! ## C29 -/

/-- `frm` is a log domain whose log bounds are the bounds of the unbinned domain `tgt`: the case
in which `cast` exponentiates the value. -/
def LogLift (tgt frm : Domain) : Prop :=
  frm.logBounds = some (tgt.lower, tgt.upper) ∧ tgt.card = none

/-- **C29 (proved part).** Outside of the log lift case, casting a value of any declared domain
to any declared domain gives a value of the target: within its bounds and whole for integer
domains. -/
theorem C29_cast_in_bounds_partial (tgt frm : Domain) (ht : Declared tgt) (hf : Declared frm)
    (hlift : ¬ LogLift tgt frm) (x : ℝ) (hx : IsValue frm x) :
    ∃ y, tgt.cast x frm = some y ∧ IsValue tgt y := by
  have st := ht.shape
  have sf := hf.shape
  unfold Domain.cast
  split_ifs with h1 h2 h3
  · refine ⟨_, rfl, ?_⟩
    rw [finish_eq st]
    obtain ⟨⟨e1, e2⟩, _, _⟩ := h1
    obtain ⟨a, b, _⟩ := hx
    rw [← e1] at a
    rw [← e2] at b
    cases hr : tgt.round with
    | false =>
      refine ⟨by simpa [roundIf] using a, by simpa [roundIf] using b, ?_⟩
      intro hi
      rw [st.isInt_round, hr] at hi
      simp at hi
    | true =>
      have hi : tgt.isInt = true := by rw [st.isInt_round, hr]
      obtain ⟨m, hm⟩ := st.lowerInt hi
      obtain ⟨n, hn⟩ := st.upperInt hi
      simp only [roundIf, if_true]
      rw [hm] at a
      rw [hn] at b
      refine ⟨?_, ?_, fun _ => ⟨_, rfl⟩⟩
      · rw [hm]; exact_mod_cast le_rnd_of_le a
      · rw [hn]; exact_mod_cast rnd_le_of_le b
  · exact absurd h2 sf.not_unitFloat
  · exact absurd h3 hlift
  · obtain ⟨u, hu, hu0, hu1⟩ := toUnit_unit sf hx
    simp only [hu, Option.bind_eq_bind, Option.bind_some]
    exact fromUnit_value st hu0 hu1

/-- **C29 fails** in the log lift case, for every such pair of domains: the largest value of the
source is cast to a number above the upper bound of the target. -/
theorem C29_log_lift_fails (tgt frm : Domain) (ht : Declared tgt) (hf : Declared frm)
    (hlift : LogLift tgt frm) :
    IsValue frm frm.upper ∧ ∃ y, tgt.cast frm.upper frm = some y ∧ tgt.upper < y := by
  have st := ht.shape
  have sf := hf.shape
  refine ⟨⟨sf.lt.le, le_refl _, sf.upperInt⟩, ?_⟩
  obtain ⟨hl, hc⟩ := hlift
  have hr : tgt.round = false := by
    cases hr : tgt.round with
    | false => rfl
    | true => exact absurd hc (st.cardRound hr)
  obtain ⟨l, u, hl0, hu0, e1, e2, hcc⟩ := sf.logs _ _ hl
  have hnear : u - 1 / 2 ≤ frm.upper := by
    rcases hcc with ⟨_, rfl, rfl⟩ | ⟨_, _, g2⟩
    · linarith
    · have := rnd_near u
      rw [abs_le] at this
      rw [g2]; linarith [this.1]
  have hup : tgt.upper < Real.exp frm.upper := by
    have h1 := Real.add_one_le_exp frm.upper
    have h2 := Real.log_le_sub_one_of_pos hu0
    linarith
  have hne : ¬ ((tgt.lower = frm.lower ∧ tgt.upper = frm.upper) ∧ tgt.logBounds = frm.logBounds ∧
      tgt.card = frm.card) := by
    rintro ⟨⟨_, e4⟩, _, _⟩
    have h2 := Real.log_le_sub_one_of_pos hu0
    linarith
  unfold Domain.cast
  rw [if_neg hne, if_neg sf.not_unitFloat, if_pos ⟨hl, hc⟩]
  refine ⟨_, rfl, ?_⟩
  rw [finish_eq st]
  simpa only [roundIf, hr, Bool.false_eq_true, if_false] using hup

/-- **C29, exactly.** Casting from one declared domain to another stays in bounds for all values
if and only if the pair is not in the log lift case. -/
theorem C29_cast_in_bounds_iff (tgt frm : Domain) (ht : Declared tgt) (hf : Declared frm) :
    (∀ x, IsValue frm x → ∃ y, tgt.cast x frm = some y ∧ IsValue tgt y) ↔
      ¬ LogLift tgt frm := by
  constructor
  · intro h hl
    obtain ⟨hv, y, hy, hlt⟩ := C29_log_lift_fails tgt frm ht hf hl
    obtain ⟨z, hz, hzv⟩ := h _ hv
    rw [hy] at hz
    simp only [Option.some.injEq] at hz
    subst hz
    exact absurd hzv.2.1 (not_le.mpr hlt)
  · intro h x hx
    exact C29_cast_in_bounds_partial tgt frm ht hf h x hx

/-- The log lift case is reached by an ordinary parameter: encoding a float parameter declared
from `1` to `e` on a log scale into the unit interval, as the default encoder does. -/
example : ∃ d, floating 1 (Real.exp 1) true = some d ∧ Declared d ∧ LogLift unitFloat d := by
  obtain ⟨d, h1, h2, h3⟩ := declared_log (l := 1) (u := Real.exp 1) one_pos
    (by have := Real.add_one_le_exp (1 : ℝ); linarith)
  refine ⟨d, h1, h2, ?_, by simp [unitFloat, Domain.card, card.byRound]⟩
  rw [h3]
  simp [unitFloat]

/-- The hypotheses of the proved part are met by casting from a log float to an integer
domain. -/
example : ∃ d e, floating 1 8 true = some d ∧ integer ((3 : ℤ) : ℝ) ((7 : ℤ) : ℝ) = some e ∧
    Declared d ∧ Declared e ∧ ¬ LogLift e d ∧ IsValue d 2.5 := by
  obtain ⟨d, h1, h2, h3⟩ := declared_log (l := 1) (u := 8) one_pos (by norm_num)
  obtain ⟨e, h4, h5⟩ := declared_integer (l := 3) (u := 7) (by norm_num)
  refine ⟨d, e, h1, h4, h2, h5, ?_, ?_⟩
  · intro hl
    have := hl.2
    rw [integer, mkLogBounds] at h4
    simp only [Bool.false_eq_true, if_false, Option.bind_eq_bind, Option.bind_some] at h4
    have := make_eq h4
    subst this
    simp [LogLift, Domain.card, card.byRound] at hl
  · have h8 : (0 : ℝ) < 8 := by norm_num
    simp only [floating, mkLogBounds, flog, one_pos, h8, if_true, Option.bind_eq_bind,
      Option.bind_some] at h1
    have := make_eq h1
    subst this
    exact ⟨by norm_num, by norm_num, by simp⟩

/-- Casting a row column by column: the result has the same number of columns and every column
is a value of its target domain. -/
theorem C29_translate_in_bounds_partial (x : List ℝ) (frm tgt : List Domain)
    (hx : List.Forall₂ (fun v d => Declared d ∧ IsValue d v) x frm)
    (ht : tgt.length = x.length) (hd : ∀ d ∈ tgt, Declared d)
    (hlift : ∀ p ∈ tgt.zip frm, ¬ LogLift p.1 p.2) :
    ∃ y, translate x frm tgt = some y ∧ List.Forall₂ (fun v d => IsValue d v) y tgt := by
  have hlen : frm.length = x.length := hx.length_eq.symm
  unfold translate
  rw [if_neg (not_not.mpr hlen), if_neg (not_not.mpr ht)]
  clear hlen
  induction hx generalizing tgt with
  | nil =>
    cases tgt with
    | nil => exact ⟨[], by simp, List.Forall₂.nil⟩
    | cons => simp at ht
  | @cons v d vs ds hv _ ih =>
    cases tgt with
    | nil => simp at ht
    | cons t ts =>
      obtain ⟨y, hy, hyv⟩ := C29_cast_in_bounds_partial t d (hd t (by simp)) hv.1
        (hlift (t, d) (by simp)) v hv.2
      obtain ⟨ys, hys, hF⟩ := ih ts (by simpa using ht) (fun e he => hd e (by simp [he]))
        (fun p hp => hlift p (by simp [hp]))
      refine ⟨y :: ys, ?_, List.Forall₂.cons hyv hF⟩
      simp only [List.zip_cons_cons, List.mapM_cons, hy, hys, Option.bind_eq_bind,
        Option.bind_some, Option.pure_def]

/-- A list of domains of the wrong length is rejected. -/
theorem C29_translate_rejects (x : List ℝ) (frm tgt : List Domain)
    (h : frm.length ≠ x.length ∨ tgt.length ≠ x.length) : translate x frm tgt = none := by
  unfold translate
  rcases h with h | h
  · rw [if_pos h]
  · split_ifs <;> rfl

/-! ## C30 -/

/-- **C30, float domains** (linear and log): every value comes back unchanged from the unit
interval. -/
theorem C30_float_round_trip (l u : ℝ) (log : Bool) (cat : Bool) (d : Domain)
    (hd : floating l u log none cat = some d) (h : Declared d) (x : ℝ) (hx : IsValue d x) :
    (d.toUnit x).bind d.fromUnit = some x := by
  have s := h.shape
  have hlt := s.lt
  unfold floating at hd
  cases hlb : mkLogBounds l u log with
  | none => simp [hlb] at hd
  | some lb =>
    simp only [hlb, Option.bind_eq_bind, Option.bind_some] at hd
    have hmk := make_eq hd
    have hc : d.card = none := by rw [← hmk]; simp [Domain.card, card.byRound]
    have hr : d.round = false := by rw [← hmk]
    have hfin : ∀ z, asDtype d.isInt (roundIf d.round z) = z := by
      intro z; rw [finish_eq s]; simp [roundIf, hr]
    unfold toUnit
    rw [if_neg (fun hh => s.not_unitFloat hh.1)]
    unfold fromUnit
    simp only [if_neg s.not_unitFloat, hc, quantize, hfin, Option.bind_eq_bind,
      Option.bind_some, Option.pure_def]
    cases hl : d.logBounds with
    | none =>
      simp only
      have hne : d.upper - d.lower ≠ 0 := by linarith
      rw [fdiv_eq hne]
      simp only [Option.bind_some, Option.some.injEq]
      field_simp
      ring
    | some p =>
      obtain ⟨lo, hi⟩ := p
      simp only
      have hpos : 0 < x := lt_of_lt_of_le (s.pos (by simp [hl])) hx.1
      have hlt' := s.logs_lt hl
      have hne : hi - lo ≠ 0 := by linarith
      rw [flog_eq hpos]
      simp only [Option.bind_some]
      rw [fdiv_eq hne]
      simp only [Option.bind_some, Option.some.injEq]
      have : (Real.log x - lo) / (hi - lo) * (hi - lo) + lo = Real.log x := by
        field_simp; ring
      rw [this, Real.exp_log hpos]

/-- **C30, the other direction**: every point of the unit interval comes back unchanged from an
unbinned float domain. -/
theorem C30_unit_round_trip (l u : ℝ) (log : Bool) (cat : Bool) (d : Domain)
    (hd : floating l u log none cat = some d) (h : Declared d) (t : ℝ) :
    (d.fromUnit t).bind d.toUnit = some t := by
  have s := h.shape
  have hlt := s.lt
  unfold floating at hd
  cases hlb : mkLogBounds l u log with
  | none => simp [hlb] at hd
  | some lb =>
    simp only [hlb, Option.bind_eq_bind, Option.bind_some] at hd
    have hmk := make_eq hd
    have hc : d.card = none := by rw [← hmk]; simp [Domain.card, card.byRound]
    have hr : d.round = false := by rw [← hmk]
    have hfin : ∀ z, asDtype d.isInt (roundIf d.round z) = z := by
      intro z; rw [finish_eq s]; simp [roundIf, hr]
    unfold fromUnit
    simp only [if_neg s.not_unitFloat, hc, quantize, hfin, Option.bind_eq_bind,
      Option.bind_some, Option.pure_def]
    unfold toUnit
    rw [if_neg (fun hh => s.not_unitFloat hh.1)]
    cases hl : d.logBounds with
    | none =>
      simp only [hc, quantize]
      have hne : d.upper - d.lower ≠ 0 := by linarith
      rw [fdiv_eq hne]
      simp only [Option.bind_eq_bind, Option.bind_some, Option.some.injEq]
      field_simp
      ring
    | some p =>
      obtain ⟨lo, hi⟩ := p
      simp only [hc, quantize]
      have hlt' := s.logs_lt hl
      have hne : hi - lo ≠ 0 := by linarith
      rw [flog_eq (Real.exp_pos _), Real.log_exp]
      simp only [Option.bind_eq_bind, Option.bind_some]
      rw [fdiv_eq hne]
      simp only [Option.bind_some, Option.some.injEq]
      field_simp
      ring

/-- **C30, integer domains** (no log scale, no bins): every integer between the bounds comes back
unchanged from the unit interval. -/
theorem C30_integer_round_trip (l u : ℝ) (cat : Bool) (d : Domain)
    (hd : integer l u false none cat = some d) (hlt : d.lower < d.upper)
    (x : ℝ) (hx : IsValue d x) : (d.toUnit x).bind d.fromUnit = some x := by
  have hdec : Declared d := by
    refine ⟨⟨l, u, false, none, cat, Or.inr hd, by simp⟩, hlt, ?_⟩
    intro hl
    rw [integer, mkLogBounds] at hd
    simp only [Bool.false_eq_true, if_false, Option.bind_eq_bind, Option.bind_some] at hd
    have := make_eq hd
    rw [← this] at hl
    simp at hl
  have s := hdec.shape
  rw [integer, mkLogBounds] at hd
  simp only [Bool.false_eq_true, if_false, Option.bind_eq_bind, Option.bind_some] at hd
  have hmk := make_eq hd
  have hlog : d.logBounds = none := by rw [← hmk]
  have hr : d.round = true := by rw [← hmk]
  have hint : d.isInt = true := by rw [← hmk]
  obtain ⟨a, ha⟩ := s.lowerInt hint
  obtain ⟨b, hb⟩ := s.upperInt hint
  obtain ⟨hx0, hx1, hxi⟩ := hx
  obtain ⟨n, rfl⟩ := hxi hint
  have hc : d.card = some (b - a + 1) := by
    have : d.bins = none := by rw [← hmk]
    simp only [Domain.card, this, card.byRound, hr, if_true, Option.some.injEq]
    rw [ha, hb, ← Int.cast_sub, ← Int.cast_one (R := ℝ), ← Int.cast_add, Int.floor_intCast]
  have hq := s.card _ hc
  rw [ha, hb] at hlt
  rw [ha] at hx0
  rw [hb] at hx1
  have hlt' : a < b := by exact_mod_cast hlt
  have hn0 : a ≤ n := by exact_mod_cast hx0
  have hn1 : n ≤ b := by exact_mod_cast hx1
  have hq1 : (b - a + 1 - 1 : ℤ) = b - a := by ring
  have hne : (b : ℝ) - a ≠ 0 := by
    have : (a : ℝ) < b := by exact_mod_cast hlt'
    linarith
  have hbin := quantize_bin (q := b - a + 1) (k := n - a) hq (by omega) (by omega)
  rw [hq1] at hbin
  have hcast : ((n - a : ℤ) : ℝ) / ((b - a : ℤ) : ℝ) = ((n : ℝ) - a) / ((b : ℝ) - a) := by
    push_cast; ring
  rw [hcast] at hbin
  have hto : d.toUnit (n : ℝ) = some (((n : ℝ) - a) / ((b : ℝ) - a)) := by
    unfold toUnit
    rw [if_neg (fun hh => s.not_unitFloat hh.1), hlog]
    simp only [hc, ha, hb]
    rw [fdiv_eq hne]
    simpa using hbin
  rw [hto]
  simp only [Option.bind_some]
  unfold fromUnit
  rw [if_neg s.not_unitFloat, hc]
  simp only [hbin, Option.bind_eq_bind, Option.bind_some, hlog, ha, hb, Option.pure_def]
  have : ((n : ℝ) - a) / ((b : ℝ) - a) * ((b : ℝ) - a) + a = n := by
    field_simp; ring
  rw [this, hr]
  simp [roundIf]

/-- **C30, index domains** with at least two indices: every index comes back unchanged. -/
theorem C30_indices_round_trip (n : ℕ) (hn : 2 ≤ n) (cat : Bool) (d : Domain)
    (hd : indices n cat = some d) (i : ℕ) (hi : i < n) :
    (d.toUnit i).bind d.fromUnit = some (i : ℝ) := by
  have hd' := hd
  unfold indices at hd
  have h1 : (1 : ℝ) < n := by exact_mod_cast hn
  have hb : ((n : ℝ) - 1) = ((n - 1 : ℤ) : ℝ) := by push_cast; ring
  have hb0 : ((0 : ℤ) : ℝ) = 0 := by simp
  have hmk : d.lower = 0 ∧ d.upper = (n : ℝ) - 1 := by
    rw [integer, mkLogBounds] at hd
    simp only [Bool.false_eq_true, if_false, Option.bind_eq_bind, Option.bind_some] at hd
    have := make_eq hd
    rw [← this]
    constructor
    · show ((rnd 0 : ℤ) : ℝ) = 0
      rw [← hb0, rnd_intCast]
    · show ((rnd ((n : ℝ) - 1) : ℤ) : ℝ) = _
      rw [hb, rnd_intCast]
  apply C30_integer_round_trip _ _ _ d hd
  · rw [hmk.1, hmk.2]; linarith
  · refine ⟨?_, ?_, fun _ => ⟨i, by simp⟩⟩
    · rw [hmk.1]; positivity
    · rw [hmk.2]
      have : (i : ℝ) + 1 ≤ n := by exact_mod_cast hi
      linarith

/-- **C30, binned float domains**: the equally spaced bin values come back unchanged. -/
theorem C30_bin_round_trip (l u : ℝ) (q : ℤ) (cat : Bool) (d : Domain)
    (hd : floating l u false (some q) cat = some d) (hq : 2 ≤ q) (hlt : l < u)
    (x : ℝ) (hx : IsBinValue d q x) : (d.toUnit x).bind d.fromUnit = some x := by
  have hdec : Declared d := by
    have hd2 := hd
    rw [floating, mkLogBounds] at hd2
    simp only [Bool.false_eq_true, if_false, Option.bind_eq_bind, Option.bind_some] at hd2
    have := make_eq hd2
    refine ⟨⟨l, u, false, some q, cat, Or.inl hd, by simp [hq]⟩, ?_, ?_⟩
    · rw [← this]; exact hlt
    · rw [← this]; simp
  have s := hdec.shape
  rw [floating, mkLogBounds] at hd
  simp only [Bool.false_eq_true, if_false, Option.bind_eq_bind, Option.bind_some] at hd
  have hmk := make_eq hd
  have hlog : d.logBounds = none := by rw [← hmk]
  have hr : d.round = false := by rw [← hmk]
  have hq0 : q ≠ 0 := by omega
  have hc : d.card = some q := by
    have : d.bins = some q := by rw [← hmk]
    simp [Domain.card, this, hq0]
  have hne : d.upper - d.lower ≠ 0 := by have := s.lt; linarith
  obtain ⟨k, hk0, hk1, rfl⟩ := hx
  have hbin := quantize_bin hq hk0 hk1
  have hsub : (d.lower + (k : ℝ) / ((q - 1 : ℤ) : ℝ) * (d.upper - d.lower) - d.lower) /
      (d.upper - d.lower) = (k : ℝ) / ((q - 1 : ℤ) : ℝ) := by
    field_simp
    ring
  have hto : d.toUnit (d.lower + (k : ℝ) / ((q - 1 : ℤ) : ℝ) * (d.upper - d.lower)) =
      some ((k : ℝ) / ((q - 1 : ℤ) : ℝ)) := by
    unfold toUnit
    rw [if_neg (fun hh => s.not_unitFloat hh.1), hlog]
    simp only
    rw [fdiv_eq hne, hsub]
    simpa [hc] using hbin
  rw [hto]
  simp only [Option.bind_some]
  unfold fromUnit
  rw [if_neg s.not_unitFloat, hc]
  simp only [hbin, Option.bind_eq_bind, Option.bind_some, hlog, Option.pure_def, finish_eq s]
  simp only [roundIf, hr, Bool.false_eq_true, if_false, Option.some.injEq]
  ring

/-- Casting into a binned linear float domain from any other domain gives one of the equally
spaced bin values, unless the source has the same bounds and number of bins. -/
theorem C29_bin_value (tgt frm : Domain) (l u : ℝ) (q : ℤ) (cat : Bool) (hq : 2 ≤ q)
    (ht : floating l u false (some q) cat = some tgt) (hf : Declared frm)
    (hdiff : ¬ (frm.lower = l ∧ frm.upper = u ∧ frm.logBounds = none ∧ frm.card = some q))
    (x : ℝ) (hx : IsValue frm x) :
    ∃ y, tgt.cast x frm = some y ∧ IsBinValue tgt q y := by
  rw [floating, mkLogBounds] at ht
  simp only [Bool.false_eq_true, if_false, Option.bind_eq_bind, Option.bind_some] at ht
  have hmk := make_eq ht
  have hq0 : q ≠ 0 := by omega
  have hc : tgt.card = some q := by
    have : tgt.bins = some q := by rw [← hmk]
    simp [Domain.card, this, hq0]
  have hnu : ¬ tgt.isUnitFloat := by
    rintro ⟨_, _, h3, _⟩
    rw [← hmk] at h3
    simp at h3
  have sf := hf.shape
  have h1 : ¬ ((tgt.lower = frm.lower ∧ tgt.upper = frm.upper) ∧ tgt.logBounds = frm.logBounds ∧
      tgt.card = frm.card) := by
    rintro ⟨⟨e1, e2⟩, e3, e4⟩
    apply hdiff
    rw [hc] at e4
    rw [← e1, ← e2, ← e3, ← e4, ← hmk]
    simp
  unfold Domain.cast
  rw [if_neg h1, if_neg sf.not_unitFloat, if_neg (by simp [hc])]
  obtain ⟨t, ht', _, _⟩ := toUnit_unit sf hx
  simp only [ht', Option.bind_eq_bind, Option.bind_some]
  unfold fromUnit
  obtain ⟨k, hk0, hk1, _, hk⟩ := quantize_unit hq t
  rw [if_neg hnu, hc, hk]
  refine ⟨_, rfl, k, hk0, hk1, ?_⟩
  have e1 : tgt.logBounds = none := by rw [← hmk]
  have e2 : tgt.isInt = false := by rw [← hmk]
  have e3 : tgt.round = false := by rw [← hmk]
  simp only [e1, e2, e3, asDtype, roundIf, Bool.false_eq_true, if_false]
  ring

/-- **C30 fails** for integer domains on a log scale: on `1..10` the value `9` comes back as
`10`. -/
theorem C30_log_integer_fails :
    ∃ d, integer 1 10 true = some d ∧ Declared d ∧ IsValue d 9 ∧
      (d.toUnit 9).bind d.fromUnit = some 10 := by
  have h1 : (rnd (1 : ℝ) : ℤ) = 1 := by have := rnd_intCast 1; simpa using this
  have h10 : (rnd (10 : ℝ) : ℤ) = 10 := by have := rnd_intCast 10; simpa using this
  have hd : integer 1 10 true =
      some ⟨1, 10, true, true, some (Real.log 1, Real.log 10), none, false⟩ := by
    simp [integer, mkLogBounds, flog, make, Domain.card, card.byRound, h1, h10]
  refine ⟨_, hd, ?hdec, ⟨by norm_num, by norm_num, fun _ => ⟨9, by norm_num⟩⟩, ?_⟩
  case hdec =>
    exact ⟨⟨1, 10, true, none, false, Or.inr hd, by simp⟩, by norm_num, fun _ => by norm_num⟩
  have hl10 : 0 < Real.log 10 := Real.log_pos (by norm_num)
  have hfloor : ⌊(Real.log 9 - Real.log 1) / (Real.log 10 - Real.log 1) * ((10 : ℤ) : ℝ)⌋ = 9 := by
    rw [Real.log_one, sub_zero, sub_zero, Int.floor_eq_iff]
    have a : 9 * Real.log 10 ≤ 10 * Real.log 9 := by
      have e1 : 9 * Real.log 10 = Real.log (10 ^ 9) := by rw [Real.log_pow]; norm_num
      have e2 : 10 * Real.log 9 = Real.log (9 ^ 10) := by rw [Real.log_pow]; norm_num
      rw [e1, e2]
      exact Real.log_le_log (by norm_num) (by norm_num)
    have b : Real.log 9 < Real.log 10 := Real.log_lt_log (by norm_num) (by norm_num)
    constructor
    · rw [div_mul_eq_mul_div, le_div_iff₀ hl10]; push_cast; linarith
    · rw [div_mul_eq_mul_div, div_lt_iff₀ hl10]; push_cast; linarith
  have hcard : Domain.card ⟨1, 10, true, true, some (Real.log 1, Real.log 10), none, false⟩ =
      some 10 := by
    simp only [Domain.card, card.byRound, if_true, Option.some.injEq]
    have : (10 : ℝ) - 1 + 1 = ((10 : ℤ) : ℝ) := by norm_num
    rw [this, Int.floor_intCast]
  have hnu : ¬ Domain.isUnitFloat
      ⟨1, 10, true, true, some (Real.log 1, Real.log 10), none, false⟩ := by
    rintro ⟨h, _⟩; norm_num at h
  have hto : Domain.toUnit ⟨1, 10, true, true, some (Real.log 1, Real.log 10), none, false⟩ 9 =
      some 1 := by
    unfold toUnit
    rw [if_neg (fun h => hnu h.1)]
    simp only [hcard]
    rw [flog_eq (by norm_num)]
    simp only [Option.bind_eq_bind, Option.bind_some]
    rw [fdiv_eq (by rw [Real.log_one]; linarith)]
    simp only [Option.bind_some, quantize]
    rw [hfloor, fdiv_eq (by norm_num)]
    norm_num
  rw [hto]
  simp only [Option.bind_some]
  unfold fromUnit
  rw [if_neg hnu, hcard]
  have hq : quantize (some 10) 1 = some 1 := by
    have := quantize_bin (q := 10) (k := 9) (by norm_num) (by norm_num) (by norm_num)
    norm_num at this
    simpa using this
  simp only [hq, Option.bind_eq_bind, Option.bind_some, Option.pure_def, roundIf, if_true]
  have : Real.exp (1 * (Real.log 10 - Real.log 1) + Real.log 1) = ((10 : ℤ) : ℝ) := by
    rw [Real.log_one, sub_zero, one_mul, add_zero, Real.exp_log (by norm_num)]; norm_num
  rw [this, rnd_intCast, asDtype_intCast]
  simp

/-- **C30 fails** for domains with a single value or a single bin: nothing can be converted to
the unit interval or back, since the code divides zero by zero. -/
theorem C30_single_value_fails (d : Domain) (hs : d.card = some 1) (hn : ¬ d.isUnitFloat) (x : ℝ) :
    d.fromUnit x = none ∧ d.toUnit x = none := by
  have hq : ∀ y, quantize (some 1) y = none := by intro y; simp [quantize, fdiv]
  constructor
  · simp [fromUnit, hn, hs, hq]
  · unfold toUnit
    rw [if_neg (fun h => hn h.1)]
    cases d.logBounds with
    | none => simp [hs, hq]
    | some p => simp [hs, hq]

/-- A single-value domain can be declared: the indices of one choice. -/
example : ∃ d, indices 1 = some d ∧ d.card = some 1 ∧ ¬ d.isUnitFloat := by
  have h0 : (rnd (0 : ℝ) : ℤ) = 0 := by have := rnd_intCast 0; simpa using this
  refine ⟨⟨0, 0, true, true, none, none, false⟩, ?_, ?_, ?_⟩
  · simp [indices, integer, mkLogBounds, make, h0, Domain.card, card.byRound]
  · simp [Domain.card, card.byRound]
  · rintro ⟨_, h, _⟩; norm_num at h

/-- The round trip theorems apply: three bins from -1 to 2, and the index 3 of 5. -/
example : ∃ d, floating (-1) 2 false (some 3) = some d ∧ IsBinValue d 3 (1 / 2) := by
  refine ⟨⟨-1, 2, false, false, none, some 3, false⟩, ?_, 1, by norm_num, by norm_num, by norm_num⟩
  simp [floating, mkLogBounds, make]

example : ∃ d, indices 5 = some d ∧ (d.toUnit ((3 : ℕ) : ℝ)).bind d.fromUnit = some ((3 : ℕ) : ℝ) := by
  have h0 : (rnd (0 : ℝ) : ℤ) = 0 := by have := rnd_intCast 0; simpa using this
  have : ∃ d, indices 5 = some d := by
    refine ⟨⟨0, (rnd (((5 : ℕ) : ℝ) - 1) : ℤ), true, true, none, none, false⟩, ?_⟩
    simp [indices, integer, mkLogBounds, make, h0, Domain.card, card.byRound]
  obtain ⟨d, hd⟩ := this
  exact ⟨d, hd, C30_indices_round_trip 5 (by norm_num) false d hd 3 (by norm_num)⟩

end Verif.Space
