import Verif.Ifbo.DataProps

/-!
# Properties C87, C88 and C89: steps, continuation and acquisition of ifBO
-/

namespace Verif.Ifbo

open Verif.Space Verif.Space.Domain

variable {α : Type}

/-! ## C87: the step size -/

theorem make_float_rest {l u : ℝ} {lg fi : Bool} {d : Option ℝ} {sc : ℝ} {q : FloatParam}
    (h : FloatParam.make l u lg fi d sc = some q) :
    q.isFidelity = fi ∧ q.choice = sc ∧ q.hasPrior = d.isSome := by
  unfold FloatParam.make at h
  split at h
  · cases h
  split at h
  · cases h
  cases d with
  | none =>
    simp only [Option.some.injEq] at h
    subst h
    exact ⟨rfl, rfl, rfl⟩
  | some x =>
    simp only at h
    split at h
    · cases h
    simp only [Option.some.injEq] at h
    subst h
    exact ⟨rfl, rfl, rfl⟩

theorem make_int_rest {l u : ℝ} {lg fi : Bool} {d : Option ℝ} {sc : ℝ} {q : IntParam}
    (h : IntParam.make l u lg fi d sc = some q) :
    q.isFidelity = fi ∧ q.choice = sc ∧ q.hasPrior = d.isSome := by
  unfold IntParam.make at h
  simp only at h
  split at h
  · cases h
  split at h
  · cases h
  split at h
  · cases h
  simp only [Option.bind_eq_bind, Option.bind_eq_some_iff, Option.pure_def, Option.some.injEq] at h
  obtain ⟨f, -, rfl⟩ := h
  exact ⟨rfl, rfl, by simp⟩

/-- C87, float fidelities: the adjusted fidelity ends at the same upper bound, is a whole number of
steps long, and loses less than one step at the lower end; it is still a fidelity, not on a log scale,
with the same default and confidence. -/
theorem C87_adjust_float (p : FloatParam) (hlt : p.lower < p.upper) (step : ℝ) (f : Fid) (n : ℕ)
    (h : adjust (.float p) step = some (f, n)) :
    ∃ q, f = .float q ∧ q.upper = p.upper ∧ q.dflt = p.dflt ∧ 1 ≤ n ∧
      q.upper - q.lower = n * step ∧ p.lower ≤ q.lower ∧ q.lower < p.lower + step ∧
      q.isFidelity = true ∧ q.log = false ∧ q.choice = p.choice ∧ q.hasPrior = p.dflt.isSome := by
  obtain ⟨hl, -, hn, rfl, hw, h1, h2⟩ := adjust_some (fid := .float p) hlt h
  simp only [Fid.withLower, Option.map_eq_some_iff] at hw
  obtain ⟨q, hq, rfl⟩ := hw
  obtain ⟨-, g1, g2, g4, g3, -⟩ := make_float hq
  obtain ⟨r1, r2, r3⟩ := make_float_rest hq
  simp only [Fid.lower, Fid.upper, Fid.log] at *
  refine ⟨q, rfl, g2, g3, hn, ?_, ?_, ?_, r1, g4.trans hl, r2, r3⟩ <;> rw [g1] <;> unfold lowest <;>
    linarith

/-- C87, integer fidelities with a whole step size. -/
theorem C87_adjust_int (p : IntParam) (hlt : p.lower < p.upper) (k : ℤ) (f : Fid) (n : ℕ)
    (h : adjust (.int p) k = some (f, n)) :
    ∃ q, f = .int q ∧ q.upper = p.upper ∧ q.dflt = p.dflt ∧ 1 ≤ n ∧
      q.upper - q.lower = n * k ∧ p.lower ≤ q.lower ∧ q.lower < p.lower + k ∧
      q.isFidelity = true ∧ q.log = false ∧ q.choice = p.choice ∧ q.hasPrior = p.dflt.isSome := by
  have hlt' : (Fid.int p).lower < (Fid.int p).upper := by simpa [Fid.lower, Fid.upper] using hlt
  obtain ⟨hl, -, hn, hnn, hw, h1, h2⟩ := adjust_some hlt' h
  simp only [Fid.withLower, Option.map_eq_some_iff] at hw
  obtain ⟨q, hq, rfl⟩ := hw
  obtain ⟨-, g1, g2, g4, g3, -⟩ := make_int hq
  obtain ⟨r1, r2, r3⟩ := make_int_rest hq
  have hlow : lowest (Fid.int p).lower (Fid.int p).upper k = ((p.upper - n * k : ℤ) : ℝ) := by
    rw [lowest, ← hnn]; simp [Fid.upper]
  rw [hlow, rnd_intCast] at g1
  rw [rnd_intCast] at g2
  simp only [Fid.lower, Fid.upper, Fid.log] at *
  have h1' : (n : ℤ) * k ≤ p.upper - p.lower := by exact_mod_cast h1
  have h2' : p.upper - p.lower < ((n : ℤ) + 1) * k := by exact_mod_cast h2
  refine ⟨q, rfl, g2, ?_, hn, by rw [g1, g2]; ring, by rw [g1]; linarith, by rw [g1]; linarith, r1,
    g4.trans hl, r2, by rw [r3]; cases p.dflt <;> rfl⟩
  rw [g3, Option.map_map]
  cases p.dflt with
  | none => rfl
  | some d => simp

/-- C87, when a fidelity is accepted: it is not on a log scale, the step is positive and fits into
the range, and the default is not below the new lower bound. -/
theorem C87_accepted_iff (p : FloatParam) (hlt : p.lower < p.upper)
    (hd : ∀ d, p.dflt = some d → p.lower ≤ d ∧ d ≤ p.upper) (step : ℝ) :
    (∃ r, adjust (.float p) step = some r) ↔
      p.log = false ∧ 0 < step ∧ step ≤ p.upper - p.lower ∧
        ∀ d, p.dflt = some d → lowest p.lower p.upper step ≤ d := by
  constructor
  · rintro ⟨⟨f, n⟩, h⟩
    obtain ⟨hl, hpos, hn, -, hw, h1, -⟩ := adjust_some (fid := .float p) hlt h
    simp only [Fid.withLower, Option.map_eq_some_iff] at hw
    obtain ⟨q, hq, rfl⟩ := hw
    obtain ⟨-, -, -, -, -, g⟩ := make_float hq
    refine ⟨hl, hpos, ?_, fun d hd' => (g d hd').1⟩
    have : (1 : ℝ) ≤ n := by exact_mod_cast hn
    simp only [Fid.lower, Fid.upper] at h1
    nlinarith
  · rintro ⟨hl, hpos, hle, hdd⟩
    have hx : 1 ≤ (p.upper - p.lower) / step := by rw [le_div_iff₀ hpos]; linarith
    have hfl : 1 ≤ ⌊(p.upper - p.lower) / step⌋ := by rw [Int.le_floor]; exact_mod_cast hx
    have hcast : ((⌊(p.upper - p.lower) / step⌋ : ℤ) : ℝ) = steps p.lower p.upper step := by
      have : (⌊(p.upper - p.lower) / step⌋ : ℤ) = ((steps p.lower p.upper step : ℕ) : ℤ) := by
        unfold steps
        rw [Int.natCast_floor_eq_floor (by linarith)]
      rw [this]; simp
    have hlow : p.lower + (p.upper - p.lower - ⌊(p.upper - p.lower) / step⌋ * step) =
        lowest p.lower p.upper step := by
      rw [hcast, lowest]; ring
    have hlt2 : lowest p.lower p.upper step < p.upper := by
      rw [← hlow]
      have : (1 : ℝ) ≤ ⌊(p.upper - p.lower) / step⌋ := by exact_mod_cast hfl
      nlinarith
    have hneg : ¬ ⌊((Fid.float p).upper - (Fid.float p).lower) / step⌋ ≤ 0 := by
      simp only [Fid.lower, Fid.upper]
      omega
    unfold adjust
    rw [if_neg (by simp [Fid.log, hl]), if_neg hpos.ne']
    simp only [hneg, if_false]
    simp only [Fid.withLower, Fid.lower, Fid.upper, hlow, Option.map_map, Option.map_eq_some_iff]
    unfold FloatParam.make
    rw [if_neg (not_le.mpr hlt2), hl, if_neg (by simp)]
    cases hdf : p.dflt with
    | none => exact ⟨_, _, rfl, rfl⟩
    | some d =>
      simp only
      rw [if_neg (not_not.mpr ⟨hdd d hdf, (hd d hdf).2⟩)]
      exact ⟨_, _, rfl, rfl⟩

/-- C87 fails: a fidelity whose default is its lower bound is rejected whenever the step size does
not divide the range. -/
theorem C87_default_fails (p : FloatParam) (hlt : p.lower < p.upper) (step : ℝ)
    (hd : p.dflt = some p.lower) (hnd : ∀ m : ℕ, (m : ℝ) * step ≠ p.upper - p.lower) :
    adjust (.float p) step = none := by
  cases h : adjust (.float p) step with
  | none => rfl
  | some r =>
    exfalso
    have := ((C87_accepted_iff p hlt (by intro d h; rw [hd] at h; cases h; exact ⟨le_rfl, hlt.le⟩)
      step).mp ⟨r, h⟩).2.2.2 p.lower hd
    obtain ⟨f, n⟩ := r
    obtain ⟨-, -, -, hn, -, h1, -⟩ := adjust_some (fid := .float p) hlt h
    unfold lowest at this
    simp only [Fid.lower, Fid.upper] at hn h1
    rw [← hn] at this
    exact hnd n (le_antisymm h1 (by linarith))

/-- C87 fails: when only one step fits into the range, every call of `ask` after the initial design
raises. -/
theorem C87_single_step_fails (p : FloatParam) (hlt : p.lower < p.upper) (step : ℝ)
    (design : List α) (s : Optimizer α) (h : init (.float p) step design = some s)
    (h1 : steps p.lower p.upper step = 1) (ts : List (Tr α)) (hd : design.length ≤ newId ts)
    (score : Row α → ℝ) (bts : List (Batch α)) : ask s score bts ts = none := by
  obtain ⟨-, -, -, -, rfl⟩ := init_float hlt h
  unfold ask
  simp only [List.getElem?_eq_none_iff.mpr hd, h1]
  cases encode _ ts with
  | none => rfl
  | some data => simp [intDom]

/-- C87 fails: with a fidelity that ends at 1, every configuration proposed after the initial
design has NaN as its fidelity. -/
theorem C87_upper_one_fails (p : FloatParam) (hlt : p.lower < p.upper) (hu : p.upper = 1) (step : ℝ)
    (design : List α) (s : Optimizer α) (h : init (.float p) step design = some s)
    (ts : List (Tr α)) (hd : design.length ≤ newId ts)
    (score : Row α → ℝ) (bts : List (Batch α)) (pr : Proposal α)
    (ha : ask s score bts ts = some pr) : pr.fid = none := by
  obtain ⟨-, -, -, hlow, rfl⟩ := init_float hlt h
  have hc : ∀ x : ℝ, (floatDom (lowest p.lower p.upper step) p.upper).cast x
      (floatDom (1 / p.upper) 1) = none := by
    intro x
    unfold Domain.cast
    rw [if_neg, if_neg (floatDom_not_unit _ _), if_neg (by simp [floatDom]), hu]
    · rw [div_one, floatDom_toUnit_degenerate]; rfl
    · rintro ⟨⟨h1, -⟩, -⟩
      simp only [floatDom, hu] at h1 hlow
      linarith
  unfold ask at ha
  simp only [List.getElem?_eq_none_iff.mpr hd] at ha
  cases he : encode (⟨lowest p.lower p.upper step, floatDom (lowest p.lower p.upper step) p.upper,
        floatDom (1 / p.upper) 1, intDom 0 ((steps p.lower p.upper step : ℤ) - 1), design⟩ :
        Optimizer α) ts with
  | none => rw [he] at ha; cases ha
  | some data =>
    rw [he] at ha
    simp only [Option.bind_eq_bind, Option.bind_some] at ha
    split at ha
    · cases ha
    · cases hr : acquire score (floatDom (1 / p.upper) 1)
        (List.map (fun x => x.1) (List.filter (fun r => r.2.isSome) data)) bts with
      | none => rw [hr] at ha; cases ha
      | some row? =>
        rw [hr] at ha
        cases row? with
        | none => cases ha
        | some row =>
          simp only [Option.bind_some, decide', hc] at ha
          split at ha
          · cases ha; rfl
          · cases ha

/-! ## C88: continuation -/

/-- What a user expects of the trials of a history with `n` levels: every trial is at the level its
id names, no id is used twice, and a trial above the lowest level continues a finished trial of the
same configuration one level below. -/
structure Orderly (n : ℕ) (level : ℤ → ℝ) (ts : List (Tr α)) : Prop where
  level_eq : ∀ t ∈ ts, 0 ≤ t.label ∧ t.label ≤ n - 1 ∧ t.fid = level t.label
  ids : ∀ (i j : ℕ) (t t' : Tr α), ts[i]? = some t → ts[j]? = some t' →
    t.cfg = t'.cfg → t.label = t'.label → i = j
  step : ∀ t ∈ ts, 0 < t.label →
    ∃ t' ∈ ts, t'.cfg = t.cfg ∧ t'.label = t.label - 1 ∧ t'.config = t.config ∧ Done t'

/-- What a user expects of a proposal: a new configuration at the lowest level under a number not
used before, or the continuation of the highest finished trial of a configuration, one level
higher, with that trial named as predecessor. -/
def Continues (n : ℕ) (level : ℤ → ℝ) (ts : List (Tr α)) (p : Proposal α) : Prop :=
  (p.prev = none ∧ p.label = 0 ∧ p.fid = some (level 0) ∧ ∀ t ∈ ts, t.cfg < p.cfg) ∨
  ∃ t ∈ ts, Done t ∧ p.prev = some (t.cfg, t.label) ∧ p.cfg = t.cfg ∧ p.label = t.label + 1 ∧
    p.label ≤ n - 1 ∧ p.config = t.config ∧ (∃ f, p.fid = some f ∧ f = level p.label ∧ t.fid < f) ∧
    ∀ t' ∈ ts, t'.cfg = t.cfg → Done t' → t'.label ≤ t.label

theorem Inv.orderly {n : ℕ} {level : ℤ → ℝ} {ts : List (Tr α)} (h : Inv n level ts) :
    Orderly n level ts := by
  refine ⟨h.levels, ?_, h.steps⟩
  intro i j t t' hi hj hc hl
  have hp := List.pairwise_iff_getElem.mp h.ids
  obtain ⟨hi', rfl⟩ := List.getElem?_eq_some_iff.mp hi
  obtain ⟨hj', rfl⟩ := List.getElem?_eq_some_iff.mp hj
  rcases lt_trichotomy i j with hij | hij | hij
  · exact absurd ⟨hc, hl⟩ (hp i j hi' hj' hij)
  · exact hij
  · exact absurd ⟨hc.symm, hl.symm⟩ (hp j i hj' hi' hij)

theorem ask_continues_of {s : Optimizer α} {n : ℕ} {level : ℤ → ℝ} (hg : Good s n level id)
    {ts : List (Tr α)} (hr : Reach s ts) {score : Row α → ℝ} {bts : List (Batch α)}
    {p : Proposal α} (h : ask s score bts ts = some p) : Continues n level ts p := by
  have hinv := hr.inv hg
  rcases ask_cases hg hinv.levels h with ⟨h1, h2, h3, h4⟩ | ⟨t, htm, htd, hlt, rfl, hmax⟩
  · left
    exact ⟨h1, h2, h4, by rw [h3]; exact lt_newId ts⟩
  · right
    obtain ⟨h0, h1, h2⟩ := hinv.levels t htm
    refine ⟨t, htm, htd, rfl, rfl, rfl, ?_, rfl, ⟨level (t.label + 1), ?_, rfl, ?_⟩, hmax⟩
    · simp only [id]; omega
    · simp only [id]
      exact hg.fidOfIx _ (by omega) (by omega)
    · rw [h2]; exact hg.strict _ _ h0 (by omega) (by omega)

/-- C88, float fidelities, histories: with at least two steps and an upper bound other than 1, every
history is orderly; the levels are equally spaced from the adjusted lower bound to the upper
bound. -/
theorem C88_float_history (p : FloatParam) (hlt : p.lower < p.upper) (hu : p.upper ≠ 1) (step : ℝ)
    (hn : 2 ≤ steps p.lower p.upper step) (design : List α) (s : Optimizer α)
    (h : init (.float p) step design = some s) (ts : List (Tr α)) (hr : Reach s ts) :
    Orderly (steps p.lower p.upper step)
      (spaced (lowest p.lower p.upper step) p.upper (steps p.lower p.upper step)) ts := by
  obtain ⟨-, -, -, hlow, rfl⟩ := init_float hlt h
  exact (hr.inv (good_float hlow hu hn)).orderly

/-- C88, float fidelities, proposals. -/
theorem C88_float_ask (p : FloatParam) (hlt : p.lower < p.upper) (hu : p.upper ≠ 1) (step : ℝ)
    (hn : 2 ≤ steps p.lower p.upper step) (design : List α) (s : Optimizer α)
    (h : init (.float p) step design = some s) (ts : List (Tr α)) (hr : Reach s ts)
    (score : Row α → ℝ) (bts : List (Batch α)) (pr : Proposal α)
    (ha : ask s score bts ts = some pr) :
    Continues (steps p.lower p.upper step)
      (spaced (lowest p.lower p.upper step) p.upper (steps p.lower p.upper step)) ts pr := by
  obtain ⟨-, -, -, hlow, rfl⟩ := init_float hlt h
  exact ask_continues_of (good_float hlow hu hn) hr ha

theorem int_good {p : IntParam} (hlt : p.lower < p.upper) (hu : p.upper ≠ 1) {k : ℤ}
    (hn : 2 ≤ steps p.lower p.upper k) {design : List α} {s : Optimizer α}
    (h : init (.int p) k design = some s) :
    Good s (steps p.lower p.upper k)
      (fun i => (spacedInt (p.upper - steps p.lower p.upper k * k) p.upper
        (steps p.lower p.upper k) i : ℤ))
      (fun i => min (offset (steps p.lower p.upper k) k i / k)
        ((steps p.lower p.upper k : ℤ) - 1)) := by
  obtain ⟨hk, -, hu0, rfl⟩ := init_int hlt h
  refine good_int ?_ hn hk
  rw [ne_eq, div_eq_iff (by exact_mod_cast hu0), one_mul]
  intro hc
  exact hu (by exact_mod_cast hc.symm)

theorem int_good_id {p : IntParam} (hlt : p.lower < p.upper) (hu : p.upper ≠ 1) {k : ℤ}
    (hn : 2 ≤ steps p.lower p.upper k) (hle : (steps p.lower p.upper k : ℤ) ≤ k + 1)
    {design : List α} {s : Optimizer α} (h : init (.int p) k design = some s) :
    Good s (steps p.lower p.upper k)
      (fun i => (spacedInt (p.upper - steps p.lower p.upper k * k) p.upper
        (steps p.lower p.upper k) i : ℤ)) id := by
  have hg := int_good hlt hu hn h
  obtain ⟨hk, -⟩ := init_int hlt h
  refine { hg with ixOfFid := fun i h0 h1 => ?_ }
  rw [hg.ixOfFid i h0 h1, (offset_index hn hk).mpr hle i h0 h1]
  rfl

/-- C88, integer fidelities, histories: with a whole step size, at least two steps and at most one
step more than the step size, every history is orderly.  Missing: more steps
(`C88_int_predecessor_fails`). -/
theorem C88_int_history_partial (p : IntParam) (hlt : p.lower < p.upper) (hu : p.upper ≠ 1) (k : ℤ)
    (hn : 2 ≤ steps p.lower p.upper k) (hle : (steps p.lower p.upper k : ℤ) ≤ k + 1)
    (design : List α) (s : Optimizer α) (h : init (.int p) k design = some s)
    (ts : List (Tr α)) (hr : Reach s ts) :
    Orderly (steps p.lower p.upper k)
      (fun i => (spacedInt (p.upper - steps p.lower p.upper k * k) p.upper
        (steps p.lower p.upper k) i : ℤ)) ts :=
  (hr.inv (int_good_id hlt hu hn hle h)).orderly

/-- C88, integer fidelities, proposals. -/
theorem C88_int_ask_partial (p : IntParam) (hlt : p.lower < p.upper) (hu : p.upper ≠ 1) (k : ℤ)
    (hn : 2 ≤ steps p.lower p.upper k) (hle : (steps p.lower p.upper k : ℤ) ≤ k + 1)
    (design : List α) (s : Optimizer α) (h : init (.int p) k design = some s)
    (ts : List (Tr α)) (hr : Reach s ts) (score : Row α → ℝ) (bts : List (Batch α))
    (pr : Proposal α) (ha : ask s score bts ts = some pr) :
    Continues (steps p.lower p.upper k)
      (fun i => (spacedInt (p.upper - steps p.lower p.upper k * k) p.upper
        (steps p.lower p.upper k) i : ℤ)) ts pr :=
  ask_continues_of (int_good_id hlt hu hn hle h) hr ha

/-- C88, acceptance: after a history without running trials, a proposal as expected is accepted by
the state; otherwise it can only be refused because a trial with the same id is still running. -/
theorem C88_accepted (n : ℕ) (level : ℤ → ℝ) (ts : List (Tr α)) (p : Proposal α)
    (h : Continues n level ts p) :
    Accepted ts p ∨ ∃ t ∈ ts, t.cfg = p.cfg ∧ t.label = p.label ∧ ¬ Done t := by
  rcases h with ⟨h1, -, -, h4⟩ | ⟨t, ht, -, h2, h3, h4, -, -, -, hmax⟩
  · left
    refine ⟨fun c i hc => (by rw [h1] at hc; cases hc), ?_⟩
    rintro ⟨t, ht, hc, -⟩
    have := h4 t ht
    omega
  · by_cases hex : ∃ t' ∈ ts, t'.cfg = p.cfg ∧ t'.label = p.label
    · right
      obtain ⟨t', ht', hc, hl⟩ := hex
      refine ⟨t', ht', hc, hl, fun hd => ?_⟩
      have := hmax t' ht' (hc.trans h3) hd
      omega
    · left
      refine ⟨?_, hex⟩
      intro c i hc
      rw [h2] at hc
      cases hc
      exact ⟨t, ht, rfl, rfl⟩

/-- C88, the distance between two levels of a float fidelity is not the step size: `n` steps are
divided among `n - 1` continuations. -/
theorem C88_increment_fails (lower upper step : ℝ) (hstep : 0 < step)
    (hn : 2 ≤ steps lower upper step) (i : ℤ) :
    spaced (lowest lower upper step) upper (steps lower upper step) (i + 1) -
      spaced (lowest lower upper step) upper (steps lower upper step) i =
        step * (steps lower upper step / ((steps lower upper step : ℝ) - 1)) ∧
    spaced (lowest lower upper step) upper (steps lower upper step) (i + 1) -
      spaced (lowest lower upper step) upper (steps lower upper step) i ≠ step := by
  have hn' : (2 : ℝ) ≤ steps lower upper step := by exact_mod_cast hn
  have hne : (steps lower upper step : ℝ) - 1 ≠ 0 := by linarith
  have heq : spaced (lowest lower upper step) upper (steps lower upper step) (i + 1) -
      spaced (lowest lower upper step) upper (steps lower upper step) i =
        step * (steps lower upper step / ((steps lower upper step : ℝ) - 1)) := by
    unfold spaced lowest
    push_cast
    field_simp
    ring
  refine ⟨heq, ?_⟩
  rw [heq]
  intro hc
  rw [mul_div_assoc', div_eq_iff hne] at hc
  nlinarith

/-! ## The failures -/

/-- The history of one configuration evaluated up to level `j`. -/
noncomputable def single (level : ℤ → ℝ) : ℕ → List (Tr Unit)
  | 0 => [⟨0, 0, (), level 0, .loss (some (1 / 2))⟩]
  | j + 1 => ⟨0, ((j + 1 : ℕ) : ℤ), (), level ((j + 1 : ℕ) : ℤ), .loss (some (1 / 2))⟩ ::
      single level j

theorem single_mem {level : ℤ → ℝ} {j : ℕ} {t : Tr Unit} :
    t ∈ single level j ↔ ∃ i : ℕ, i ≤ j ∧ t = ⟨0, (i : ℤ), (), level i, .loss (some (1 / 2))⟩ := by
  induction j with
  | zero =>
    simp only [single, List.mem_cons, List.not_mem_nil, or_false]
    constructor
    · rintro rfl; exact ⟨0, le_rfl, by simp⟩
    · rintro ⟨i, hi, rfl⟩
      obtain rfl : i = 0 := by omega
      simp
  | succ j ih =>
    simp only [single, List.mem_cons, ih]
    constructor
    · rintro (rfl | ⟨i, hi, rfl⟩)
      · exact ⟨j + 1, le_rfl, rfl⟩
      · exact ⟨i, by omega, rfl⟩
    · rintro ⟨i, hi, rfl⟩
      rcases Nat.lt_or_ge j i with h | h
      · obtain rfl : i = j + 1 := by omega
        exact Or.inl rfl
      · exact Or.inr ⟨i, h, rfl⟩

theorem single_newId (level : ℤ → ℝ) (j : ℕ) : newId (single level j) = 1 := by
  have key : ∀ (ts : List (Tr Unit)), (∀ t ∈ ts, t.cfg = 0) →
      ts.foldl (fun m u => max m u.cfg) 0 = 0 := by
    intro ts
    induction ts with
    | nil => intro _; rfl
    | cons t ts ih =>
      intro h
      rw [List.foldl_cons, h t List.mem_cons_self]
      exact ih (fun u hu => h u (List.mem_cons_of_mem _ hu))
  cases j with
  | zero => rfl
  | succ j =>
    simp only [single, newId]
    rw [key]
    intro t ht
    obtain ⟨i, -, rfl⟩ := single_mem.mp ht
    rfl

theorem single_done {level : ℤ → ℝ} {j : ℕ} {t : Tr Unit} (h : t ∈ single level j) : Done t := by
  obtain ⟨i, -, rfl⟩ := single_mem.mp h
  exact ⟨_, rfl⟩

theorem single_range (level : ℤ → ℝ) (j : ℕ) :
    outOfRange ((single level j).map fun t => minimizeY t.report) = some false := by
  have hne : single level j ≠ [] := by cases j <;> simp [single]
  obtain ⟨b, hb, hiff⟩ := outOfRange_done hne (fun t ht => single_done ht)
  cases b with
  | false => exact hb
  | true =>
    obtain ⟨t, ht, y, hr, hy⟩ := hiff.mp rfl
    obtain ⟨i, -, rfl⟩ := single_mem.mp ht
    cases hr
    norm_num at hy

theorem single_atLevels {n : ℕ} {level : ℤ → ℝ} {j : ℕ} (hj : (j : ℤ) ≤ n - 1) :
    AtLevels n level (single level j) := by
  intro t ht
  obtain ⟨i, hi, rfl⟩ := single_mem.mp ht
  refine ⟨by simp, ?_, rfl⟩
  simp only
  omega

/-- One configuration continued level by level, as long as the levels keep their indices. -/
theorem single_reach {s : Optimizer Unit} {n : ℕ} {level : ℤ → ℝ} {idx : ℤ → ℤ}
    (hg : Good s n level idx) (hlow : s.budgetDom.lower < s.budgetDom.upper)
    (hd : s.design = [()]) (j : ℕ) (hj : (j : ℤ) ≤ n - 1)
    (hidx : ∀ i : ℕ, i < j → idx i = i) : Reach s (single level j) := by
  induction j with
  | zero =>
    have hask : ask s (fun r => (r.id : ℝ)) [⟨[()], fun _ => [()]⟩] [] =
        some ⟨0, 0, (), some (level 0), none⟩ := by
      unfold ask
      simp [newId, hd, hg.min]
    have h1 := Reach.ask (s := s) _ _ (level 0) Reach.start hask rfl
      ⟨by intro c i hc; simp at hc, by simp⟩
    exact Reach.report (.loss (some (1 / 2))) h1 rfl
  | succ j ih =>
    have hr := ih (by omega) (fun i hi => hidx i (by omega))
    have hat := single_atLevels (level := level) (j := j) (n := n) (by omega)
    have hmem : (⟨0, (j : ℤ), (), level j, .loss (some (1 / 2))⟩ : Tr Unit) ∈ single level j :=
      single_mem.mpr ⟨j, le_rfl, rfl⟩
    obtain ⟨p, hp, hprev⟩ := ask_continues hg hlow hat
      (by rw [single_newId, hd]; rfl) (single_range level j) hmem (single_done hmem)
      (by
        intro t ht _
        obtain ⟨i, hi, rfl⟩ := single_mem.mp ht
        simp only
        omega) ()
    rcases ask_cases hg hat hp with ⟨h1, -⟩ | ⟨t, htm, -, hlt, rfl, hmax⟩
    · exact absurd h1 hprev
    · obtain ⟨i, hi, rfl⟩ := single_mem.mp htm
      have hij : i = j := by
        have := hmax _ hmem rfl (single_done hmem)
        simp only at this
        omega
      subst hij
      have hix : idx (i : ℤ) = i := hidx i (by omega)
      simp only [hix] at hp hprev ⊢
      have hf := hg.fidOfIx ((i : ℤ) + 1) (by omega) (by omega)
      have h1 := Reach.ask (s := s) _ _ (level ((i : ℤ) + 1)) hr hp hf
        ⟨by
          intro c k hc
          simp only [Option.some.injEq, Prod.mk.injEq] at hc
          obtain ⟨rfl, rfl⟩ := hc
          exact ⟨_, htm, rfl, rfl⟩, by
          rintro ⟨t, ht, -, hl⟩
          obtain ⟨m, hm, rfl⟩ := single_mem.mp ht
          simp only at hl
          omega⟩
      have := Reach.report (.loss (some (1 / 2))) h1 rfl
      simpa [single] using this

/-- C88 fails for integer fidelities with more steps than the step size plus one, for example 1 to
4 epochs in steps of 1: there is a run in which every trial succeeds one after the other, and in
which `ask` then names a predecessor that does not exist, so that the state refuses the
proposal. -/
theorem C88_int_predecessor_fails (p : IntParam) (hlt : p.lower < p.upper) (hu : 1 < p.upper)
    (k : ℤ) (s : Optimizer Unit) (h : init (.int p) k [()] = some s)
    (hgt : k + 1 < (steps p.lower p.upper k : ℤ)) :
    ∃ ts, Reach s ts ∧ (∀ t ∈ ts, Done t) ∧
      ∃ (score : Row Unit → ℝ) (bts : List (Batch Unit)) (pr : Proposal Unit),
        ask s score bts ts = some pr ∧ ¬ Accepted ts pr ∧
        ∃ c i, pr.prev = some (c, i) ∧ ¬ ∃ t ∈ ts, t.cfg = c ∧ t.label = i := by
  obtain ⟨hk, -, -, hs⟩ := init_int hlt h
  have hn : 2 ≤ steps p.lower p.upper k := by omega
  have hg := int_good hlt (by omega) hn h
  set n := steps p.lower p.upper k with hndef
  set level : ℤ → ℝ := fun i => (spacedInt (p.upper - n * k) p.upper n i : ℤ) with hlev
  set idx : ℤ → ℤ := fun i => min (offset n k i / k) ((n : ℤ) - 1) with hidx
  have hlow : s.budgetDom.lower < s.budgetDom.upper := by
    rw [hs]
    simp only [floatDom]
    have : (1 : ℝ) < p.upper := by exact_mod_cast hu
    rw [div_lt_one (by linarith)]
    exact this
  have hdes : s.design = [()] := by rw [hs]
  -- the first level without its own index
  have hex : ∃ i : ℕ, (i : ℤ) ≤ n - 1 ∧ idx i ≠ i := by
    by_contra hcon
    push Not at hcon
    have := (offset_index (n := n) hn hk).mp (by
      intro i h0 h1
      have := hcon i.toNat (by omega)
      rw [Int.toNat_of_nonneg h0] at this
      exact this)
    omega
  classical
  have hspec := Nat.find_spec hex
  have hmin : ∀ i : ℕ, i < Nat.find hex → (i : ℤ) ≤ n - 1 → idx i = i := by
    intro i hi h1
    by_contra hc
    exact Nat.find_min hex hi ⟨h1, hc⟩
  set j := Nat.find hex with hj
  obtain ⟨hj1, hj2⟩ := hspec
  have hoff : (j : ℤ) * k ≤ offset n k j := by
    unfold offset
    have h1 : (j : ℤ) * k ≤ (j : ℤ) * (n * k + 1) / ((n : ℤ) - 1) := by
      rw [Int.le_ediv_iff_mul_le (by omega)]
      have : (0 : ℤ) ≤ j := by omega
      nlinarith
    have h2 : (j : ℤ) * k ≤ n * k := by nlinarith
    omega
  have hge : (j : ℤ) ≤ offset n k j / k := by
    rw [Int.le_ediv_iff_mul_le (by omega)]; exact hoff
  have hgtj : (j : ℤ) < idx j := by
    have : (j : ℤ) ≤ idx j := by
      simp only [hidx]
      omega
    omega
  have hjlt : (j : ℤ) < n - 1 := by
    have : idx j ≤ (n : ℤ) - 1 := by simp only [hidx]; omega
    omega
  have hr := single_reach hg hlow hdes j hj1 (fun i hi => hmin i hi (by omega))
  have hat := single_atLevels (level := level) (j := j) (n := n) hj1
  have hmem : (⟨0, (j : ℤ), (), level j, .loss (some (1 / 2))⟩ : Tr Unit) ∈ single level j :=
    single_mem.mpr ⟨j, le_rfl, rfl⟩
  obtain ⟨pr, hp, hprev⟩ := ask_continues hg hlow hat
    (by rw [single_newId, hdes]; rfl) (single_range level j) hmem (single_done hmem)
    (by
      intro t ht _
      obtain ⟨i, hi, rfl⟩ := single_mem.mp ht
      simp only
      omega) ()
  refine ⟨single level j, hr, fun t ht => single_done ht, _, _, pr, hp, ?_⟩
  rcases ask_cases hg hat hp with ⟨h1, -⟩ | ⟨t, htm, -, -, rfl, hmax⟩
  · exact absurd h1 hprev
  · obtain ⟨i, hi, rfl⟩ := single_mem.mp htm
    have hij : i = j := by
      have := hmax _ hmem rfl (single_done hmem)
      simp only at this
      omega
    have hno : ¬ ∃ t ∈ single level j, t.cfg = 0 ∧ t.label = idx j := by
      rintro ⟨t, ht, -, hl⟩
      obtain ⟨m, hm, rfl⟩ := single_mem.mp ht
      simp only at hl
      omega
    rw [hij]
    exact ⟨fun hacc => hno (hacc.1 _ _ rfl), 0, idx j, rfl, hno⟩

/-- C88 fails with several workers: while the continuation of a configuration is running, `ask` can
propose the same continuation again, under an id that already exists. -/
theorem C88_parallel_fails (p : FloatParam) (hlt : p.lower < p.upper) (hu : 1 < p.upper) (step : ℝ)
    (hn : 2 ≤ steps p.lower p.upper step) (s : Optimizer Unit)
    (h : init (.float p) step [()] = some s) :
    ∃ ts, Reach s ts ∧ (∃ t ∈ ts, ¬ Done t) ∧
      ∃ (score : Row Unit → ℝ) (bts : List (Batch Unit)) (pr : Proposal Unit),
        ask s score bts ts = some pr ∧ ¬ Accepted ts pr ∧
        ∃ t ∈ ts, t.cfg = pr.cfg ∧ t.label = pr.label := by
  obtain ⟨-, -, -, hl, hs⟩ := init_float hlt h
  have hg : Good s (steps p.lower p.upper step)
      (spaced (lowest p.lower p.upper step) p.upper (steps p.lower p.upper step)) id := by
    rw [hs]; exact good_float hl (by linarith) hn
  have hlow : s.budgetDom.lower < s.budgetDom.upper := by
    rw [hs]
    simp only [floatDom]
    rw [div_lt_one (by linarith)]
    exact hu
  have hdes : s.design = [()] := by rw [hs]
  set n := steps p.lower p.upper step with hndef
  set level := spaced (lowest p.lower p.upper step) p.upper n with hlev
  have hr := single_reach hg hlow hdes 0 (by omega) (fun i hi => by omega)
  have hat0 := single_atLevels (level := level) (j := 0) (n := n) (by omega)
  have hmem : (⟨0, 0, (), level 0, .loss (some (1 / 2))⟩ : Tr Unit) ∈ single level 0 := by
    simp [single]
  have hnd : (1 : ℤ) ≤ (n : ℤ) - 1 := by omega
  obtain ⟨p1, hp1, hprev1⟩ := ask_continues hg hlow hat0
    (by rw [single_newId, hdes]; rfl) (single_range level 0) hmem (single_done hmem)
    (by
      intro t ht _
      obtain ⟨i, hi, rfl⟩ := single_mem.mp ht
      simp only
      omega) ()
  have hp1eq : p1 = ⟨0, 1, (), some (level 1), some (0, 0)⟩ := by
    rcases ask_cases hg hat0 hp1 with ⟨h1, -⟩ | ⟨t, htm, -, -, rfl, -⟩
    · exact absurd h1 hprev1
    · obtain ⟨i, hi, rfl⟩ := single_mem.mp htm
      obtain rfl : i = 0 := by omega
      have := hg.fidOfIx 1 (by omega) hnd
      simpa using this
  subst hp1eq
  have hr2 := Reach.ask (s := s) _ _ (level 1) hr hp1 rfl
    ⟨by
      intro c k hc
      simp only [Option.some.injEq, Prod.mk.injEq] at hc
      obtain ⟨rfl, rfl⟩ := hc
      exact ⟨_, hmem, rfl, rfl⟩, by
      rintro ⟨t, ht, -, hl⟩
      obtain ⟨m, hm, rfl⟩ := single_mem.mp ht
      simp only at hl
      omega⟩
  simp only at hr2
  have hat2 := (hr2.inv hg).levels
  have hrange : outOfRange (((⟨0, 1, (), level 1, .pending⟩ : Tr Unit) :: single level 0).map
      fun t => minimizeY t.report) = some false :=
    outOfRange_nan (by simp [minimizeY])
  have hnew : newId ((⟨0, 1, (), level 1, .pending⟩ : Tr Unit) :: single level 0) = 1 := by
    simp [newId, single]
  obtain ⟨p2, hp2, hprev2⟩ := ask_continues hg hlow hat2
    (by rw [hnew, hdes]; rfl) hrange (List.mem_cons_of_mem _ hmem) (single_done hmem)
    (by
      intro t ht hd
      rcases List.mem_cons.mp ht with rfl | ht
      · obtain ⟨y, hy⟩ := hd; cases hy
      · obtain ⟨i, hi, rfl⟩ := single_mem.mp ht
        simp only
        omega) ()
  have hid : p2.cfg = 0 ∧ p2.label = 1 := by
    rcases ask_cases hg hat2 hp2 with ⟨h1, -⟩ | ⟨t, htm, hd, -, rfl, -⟩
    · exact absurd h1 hprev2
    · rcases List.mem_cons.mp htm with rfl | htm
      · obtain ⟨y, hy⟩ := hd; cases hy
      · obtain ⟨i, hi, rfl⟩ := single_mem.mp htm
        obtain rfl : i = 0 := by omega
        exact ⟨rfl, rfl⟩
  have hex : ∃ t ∈ (⟨0, 1, (), level 1, .pending⟩ : Tr Unit) :: single level 0,
      t.cfg = p2.cfg ∧ t.label = p2.label :=
    ⟨_, List.mem_cons_self, hid.1.symm, hid.2.symm⟩
  refine ⟨_, hr2, ⟨_, List.mem_cons_self, ?_⟩, _, _, p2, hp2, fun hacc => hacc.2 hex, hex⟩
  rintro ⟨y, hy⟩
  cases hy

/-! ## C89: acquisition -/

/-- C89: the row chosen by the acquisition step has the highest score among the highest evaluations
of the configurations that are not complete and all samples; it is one of them; and on equal scores
an evaluated configuration is preferred. -/
theorem C89_acquire (score : Row α → ℝ) (bd : Domain) (rows : List (Row α)) (bts : List (Batch α))
    (row : Row α) (h : acquire score bd rows bts = some (some row)) :
    ((row ∈ rows ∧ row.budget < bd.upper ∧ ∀ c ∈ rows, c.id = row.id → c.budget ≤ row.budget) ∨
      (row.id = 0 ∧ row.budget = bd.lower ∧ ∃ bt ∈ bts, row.x ∈ bt.samples ∨
        ∃ x ∈ bt.samples, row.x ∈ bt.around x)) ∧
    (∀ bt ∈ bts, ∀ x ∈ bt.samples, score ⟨0, bd.lower, x⟩ ≤ score row) ∧
    (∀ c ∈ rows, c.budget < bd.upper → (∀ d ∈ rows, d.id = c.id → d.budget ≤ c.budget) →
      (∀ d ∈ rows, d.id = c.id → d.budget = c.budget → d = c) →
      score c ≤ score row ∧ (row ∉ rows → score c < score row)) := by
  obtain ⟨hspec, -⟩ := batches_spec score bd.lower bts _ _ h
  obtain ⟨h1, h2, -, h4⟩ := hspec row rfl
  have hexist : ∀ c ∈ rows, c.budget < bd.upper →
      (∀ d ∈ rows, d.id = c.id → d.budget ≤ c.budget) →
      (∀ d ∈ rows, d.id = c.id → d.budget = c.budget → d = c) →
      c ∈ (keepHighest rows).filter fun r => decide (r.budget < bd.upper) := by
    intro c hc hb hmax huniq
    obtain ⟨k1, k2, k3, -⟩ := keepHighest_spec rows
    obtain ⟨r, hr, hrid⟩ := k3 c hc
    have : r = c := huniq r (k1 r hr) hrid
      (le_antisymm (hmax r (k1 r hr) hrid) (k2 r hr c hc hrid.symm))
    subst this
    rw [List.mem_filter]
    exact ⟨hr, by simpa using hb⟩
  refine ⟨?_, ?_, ?_⟩
  · rcases h1 with h1 | ⟨⟨bt, hbt, h1⟩, -⟩
    · left
      exact existing_spec _ _ _ (argmax_spec score _ _ h1).1
    · right
      rcases h1 with h1 | ⟨r, hr, h1⟩
      · simp only [newRows, List.mem_map] at h1
        obtain ⟨x, hx, rfl⟩ := h1
        exact ⟨rfl, rfl, bt, hbt, Or.inl hx⟩
      · have hr' := (argmax_spec score _ _ hr).1
        simp only [newRows, List.mem_map] at h1 hr'
        obtain ⟨x, hx, rfl⟩ := h1
        obtain ⟨z, hz, rfl⟩ := hr'
        exact ⟨rfl, rfl, bt, hbt, Or.inr ⟨z, hz, hx⟩⟩
  · intro bt hbt x hx
    exact h2 bt hbt _ (List.mem_map.mpr ⟨x, hx, rfl⟩)
  · intro c hc hb hmax huniq
    have hmem := hexist c hc hb hmax huniq
    cases ham : argmax score ((keepHighest rows).filter fun r => decide (r.budget < bd.upper)) with
    | none => rw [argmax_none] at ham; rw [ham] at hmem; cases hmem
    | some a =>
      have ha := (argmax_spec score _ _ ham).2 c hmem
      refine ⟨ha.trans (h4 a ham), ?_⟩
      intro hnot
      rcases h1 with h1 | ⟨-, h1⟩
      · exact absurd (existing_spec _ _ _ (argmax_spec score _ _ h1).1).1 hnot
      · exact lt_of_le_of_lt ha (h1 a ham)

/-- C89, totality: with at least one sampler, and samplers that return samples, the acquisition
step chooses a row. -/
theorem C89_acquire_total (score : Row α → ℝ) (bd : Domain) (rows : List (Row α))
    (bts : List (Batch α)) (hne : bts ≠ [])
    (hs : ∀ bt ∈ bts, bt.samples ≠ [] ∧ ∀ x ∈ bt.samples, bt.around x ≠ []) :
    ∃ row, acquire score bd rows bts = some (some row) := by
  have key : ∀ (bts : List (Batch α)) (best : Option (Row α)),
      (∀ bt ∈ bts, bt.samples ≠ [] ∧ ∀ x ∈ bt.samples, bt.around x ≠ []) →
      ∃ res, bts.foldlM (tryBatch score bd.lower) best = some res := by
    intro bts
    induction bts with
    | nil => intro best _; exact ⟨best, rfl⟩
    | cons bt bts ih =>
      intro best hb
      obtain ⟨h1, h2⟩ := hb bt List.mem_cons_self
      rw [List.foldlM_cons]
      have hr : ∃ r, argmax score (newRows bd.lower bt.samples) = some r := by
        cases hr : argmax score (newRows bd.lower bt.samples) with
        | none => rw [argmax_none] at hr; simp [newRows] at hr; exact absurd hr h1
        | some r => exact ⟨r, rfl⟩
      obtain ⟨r, hr⟩ := hr
      have hrx : r.x ∈ bt.samples := by
        have := (argmax_spec score _ _ hr).1
        simp only [newRows, List.mem_map] at this
        obtain ⟨x, hx, rfl⟩ := this
        exact hx
      have hr' : ∃ r', argmax score (newRows bd.lower (bt.around r.x)) = some r' := by
        cases hr' : argmax score (newRows bd.lower (bt.around r.x)) with
        | none => rw [argmax_none] at hr'; simp [newRows] at hr'; exact absurd hr' (h2 _ hrx)
        | some r => exact ⟨r, rfl⟩
      obtain ⟨r', hr'⟩ := hr'
      unfold newRows at hr hr'
      have ht : tryBatch score bd.lower best bt =
          some (better score (better score best r) r') := by
        simp [tryBatch, hr, hr']
      rw [ht]
      exact ih _ (fun b hb' => hb b (List.mem_cons_of_mem _ hb'))
  obtain ⟨res, hres⟩ := key bts _ hs
  obtain ⟨-, hnone⟩ := batches_spec score bd.lower bts _ _ hres
  cases res with
  | none => exact absurd (hnone rfl).2 hne
  | some row => exact ⟨row, hres⟩

/-- C88, `ask` does not fail: on trials at the levels whose losses pass the check, with samplers
that return samples, there is a proposal. -/
theorem C88_float_total (p : FloatParam) (hlt : p.lower < p.upper) (hu : p.upper ≠ 1) (step : ℝ)
    (hn : 2 ≤ steps p.lower p.upper step) (design : List α) (s : Optimizer α)
    (h : init (.float p) step design = some s) (ts : List (Tr α)) (hr : Reach s ts)
    (hne : ts ≠ [] ∨ design ≠ [])
    (hl : ∀ t ∈ ts, ∀ y, t.report = .loss (some y) → 0 ≤ y ∧ y ≤ 1)
    (score : Row α → ℝ) (bts : List (Batch α)) (hb : bts ≠ [])
    (hs : ∀ bt ∈ bts, bt.samples ≠ [] ∧ ∀ x ∈ bt.samples, bt.around x ≠ []) :
    ∃ pr, ask s score bts ts = some pr := by
  obtain ⟨-, -, -, hlow, hs'⟩ := init_float hlt h
  have hg : Good s (steps p.lower p.upper step)
      (spaced (lowest p.lower p.upper step) p.upper (steps p.lower p.upper step)) id := by
    rw [hs']; exact good_float hlow hu hn
  have hat := (hr.inv hg).levels
  cases hd : s.design[newId ts]? with
  | some c =>
    unfold ask
    simp only [hd]
    exact ⟨_, rfl⟩
  | none =>
    have hts : ts ≠ [] := by
      rintro rfl
      rcases hne with h | h
      · exact h rfl
      · rw [hs'] at hd
        simp only [newId, List.getElem?_eq_none_iff, Nat.le_zero, List.length_eq_zero_iff] at hd
        exact h hd
    have ho : outOfRange (ts.map fun t => minimizeY t.report) = some false := by
      by_cases hdone : ∀ t ∈ ts, Done t
      · obtain ⟨b, hb', hiff⟩ := outOfRange_done hts hdone
        cases b with
        | false => exact hb'
        | true =>
          obtain ⟨t, ht, y, hry, hy⟩ := hiff.mp rfl
          have := hl t ht y hry
          rcases hy with hy | hy <;> linarith
      · push Not at hdone
        obtain ⟨t, ht, hnd⟩ := hdone
        apply outOfRange_nan
        refine List.mem_map.mpr ⟨t, ht, ?_⟩
        cases hm : minimizeY t.report with
        | none => rfl
        | some y => exact absurd ⟨y, hm⟩ hnd
    obtain ⟨b, hbud⟩ := hg.budget
    obtain ⟨row, hrow⟩ := C89_acquire_total score s.budgetDom (doneRows b ts) bts hb hs
    rw [ask_eq (fun i h0 h1 => (hbud i h0 h1).1) hat hd, ho, hrow]
    simp only [Option.bind_some, Bool.false_eq_true, if_false]
    rw [if_neg]
    · unfold decide'
      by_cases hid : row.id = 0
      · simp only [hid, if_true]; exact ⟨_, rfl⟩
      · rcases acquire_cases hrow with hmem | ⟨hid', -⟩
        · obtain ⟨hr1, -⟩ := existing_spec _ _ _ hmem
          obtain ⟨t, htm, -, rfl⟩ := mem_doneRows.mp hr1
          obtain ⟨h0, h1, -⟩ := hat t htm
          simp only [hid, if_false, (hbud _ h0 h1).2.1, Option.bind_eq_bind, Option.bind_some,
            hg.ixOfFid _ h0 h1]
          exact ⟨_, rfl⟩
        · exact absurd hid' hid
    · rw [hg.ix]
      simp only [intDom, not_le]
      have : (0 : ℤ) < ((steps p.lower p.upper step : ℕ) : ℤ) - 1 := by omega
      exact_mod_cast this

/-! ## The hypotheses can be met -/

/-- A float fidelity from 1 to 3. -/
noncomputable def demoFloat : FloatParam :=
  ⟨1, 3, false, true, none, false, 0, 0, none, none⟩

/-- An integer fidelity. -/
noncomputable def demoInt (l u : ℤ) : IntParam :=
  ⟨l, u, false, true, none, false, 0, 0, demoFloat, none, none, none⟩

theorem demo_steps : steps 1 3 1 = 2 := by
  unfold steps
  norm_num

theorem demo_int_steps : steps ((1 : ℤ) : ℝ) ((4 : ℤ) : ℝ) ((1 : ℤ) : ℝ) = 3 ∧
    steps ((1 : ℤ) : ℝ) ((5 : ℤ) : ℝ) ((2 : ℤ) : ℝ) = 2 := by
  unfold steps
  norm_num

/-- C87 and C88 apply to 1 to 3 in steps of 1: two levels, and a history with a finished and a
running trial. -/
example : ∃ s : Optimizer Unit, init (.float demoFloat) 1 [()] = some s ∧
    2 ≤ steps demoFloat.lower demoFloat.upper 1 ∧
    ∃ ts, Reach s ts ∧ ∃ t ∈ ts, ¬ Done t := by
  have hadj : ∃ r, adjust (.float demoFloat) 1 = some r :=
    (C87_accepted_iff demoFloat (by norm_num [demoFloat]) (by simp [demoFloat]) 1).mpr
      ⟨rfl, by norm_num, by norm_num [demoFloat], by simp [demoFloat]⟩
  obtain ⟨⟨f, n⟩, hr⟩ := hadj
  obtain ⟨q, rfl, hq, -⟩ := C87_adjust_float demoFloat (by norm_num [demoFloat]) 1 f n hr
  have hlog : q.log = false := by
    obtain ⟨-, -, -, -, hw, -⟩ := adjust_some (fid := .float demoFloat)
      (by norm_num [demoFloat, Fid.lower, Fid.upper]) hr
    simp only [Fid.withLower, Option.map_eq_some_iff] at hw
    obtain ⟨q', hq', he⟩ := hw
    cases he
    exact (make_float hq').2.2.2.1
  have hinit : ∃ s, init (.float demoFloat) 1 [()] = some s := by
    unfold init
    have hq3 : q.upper = 3 := hq
    simp [hr, Fid.domain, hlog, floating_eq, Fid.upper, hq3, fdiv, indices_eq]
  obtain ⟨s, hs⟩ := hinit
  have hn : 2 ≤ steps demoFloat.lower demoFloat.upper 1 := by
    simp only [demoFloat, demo_steps, le_refl]
  obtain ⟨ts, h1, h2, -⟩ := C88_parallel_fails demoFloat (by norm_num [demoFloat])
    (by norm_num [demoFloat]) 1 hn s hs
  exact ⟨s, hs, hn, ts, h1, h2⟩

/-- The optimizer for an integer fidelity without default exists. -/
theorem demo_int_init (l u k : ℤ) (hu : u ≠ 0) (hk : 0 < k) (hku : k ≤ u - l) :
    ∃ s : Optimizer Unit, init (.int (demoInt l u)) k [()] = some s := by
  have hk' : (0 : ℝ) < k := by exact_mod_cast hk
  have hx : 1 ≤ ((u : ℝ) - l) / k := by
    rw [le_div_iff₀ hk']
    have : ((k : ℤ) : ℝ) ≤ ((u - l : ℤ) : ℝ) := by exact_mod_cast hku
    push_cast at this
    linarith
  have hfl : 1 ≤ ⌊((u : ℝ) - l) / k⌋ := by rw [Int.le_floor]; exact_mod_cast hx
  have hneg : ¬ ⌊((Fid.int (demoInt l u)).upper - (Fid.int (demoInt l u)).lower) / k⌋ ≤ 0 := by
    simp only [Fid.lower, Fid.upper, demoInt]
    omega
  set m := ⌊((u : ℝ) - l) / k⌋ with hm
  have hlow : (l : ℝ) + ((u : ℝ) - l - m * k) = ((u - m * k : ℤ) : ℝ) := by push_cast; ring
  have hadj : ∃ q : IntParam, adjust (.int (demoInt l u)) k = some (.int q, m.toNat) ∧
      q.upper = u ∧ q.log = false := by
    unfold adjust
    rw [if_neg (by simp [Fid.log, demoInt]), if_neg hk'.ne']
    simp only [hneg, if_false]
    simp only [Fid.withLower, Fid.lower, Fid.upper, demoInt, ← hm, hlow]
    have hmk : 0 < m * k := by positivity
    unfold IntParam.make
    simp only [rnd_intCast]
    rw [if_neg (by omega), if_neg (by simp), if_neg (by simp)]
    unfold FloatParam.make
    rw [if_neg, if_neg (by simp)]
    · exact ⟨_, rfl, rfl, rfl⟩
    · have : ((u - m * k : ℤ) : ℝ) < u := by
        have : u - m * k < u := by omega
        exact_mod_cast this
      unfold IntParam.margin
      norm_num
      push_cast at this
      linarith
  obtain ⟨q, hq, hqu, hql⟩ := hadj
  unfold init
  have hune : (u : ℝ) ≠ 0 := by exact_mod_cast hu
  simp [hq, Fid.domain, hql, integer_eq, floating_eq, Fid.upper, hqu, fdiv, hune, indices_eq]

/-- `C88_int_predecessor_fails` applies to 1 to 4 epochs in steps of 1, and the theorems about
integer fidelities to 1 to 5 epochs in steps of 2. -/
example : (∃ s : Optimizer Unit, init (.int (demoInt 1 4)) ((1 : ℤ) : ℝ) [()] = some s ∧
      (1 : ℤ) + 1 < (steps (demoInt 1 4).lower (demoInt 1 4).upper ((1 : ℤ) : ℝ) : ℤ)) ∧
    ∃ s : Optimizer Unit, init (.int (demoInt 1 5)) ((2 : ℤ) : ℝ) [()] = some s ∧
      2 ≤ steps (demoInt 1 5).lower (demoInt 1 5).upper ((2 : ℤ) : ℝ) ∧
      (steps (demoInt 1 5).lower (demoInt 1 5).upper ((2 : ℤ) : ℝ) : ℤ) ≤ 2 + 1 := by
  obtain ⟨h1, h2⟩ := demo_int_steps
  constructor
  · obtain ⟨s, hs⟩ := demo_int_init 1 4 1 (by omega) (by omega) (by omega)
    refine ⟨s, hs, ?_⟩
    simp only [demoInt]
    rw [h1]
    norm_num
  · obtain ⟨s, hs⟩ := demo_int_init 1 5 2 (by omega) (by omega) (by omega)
    refine ⟨s, hs, ?_, ?_⟩
    · simp only [demoInt]
      rw [h2]
    · simp only [demoInt]
      rw [h2]
      norm_num

/-- C89 applies: a configuration evaluated at two budgets and a sample with a lower score. -/
example : acquire (fun r : Row ℕ => (r.id : ℝ)) (floatDom (1 / 3) 1)
    [⟨1, 1 / 3, 5⟩] [⟨[7], fun _ => [8]⟩] = some (some ⟨1, 1 / 3, 5⟩) := by
  have h1 : (1 : ℝ) / 3 < 1 := by norm_num
  simp only [acquire, keepHighest, List.mergeSort_singleton, lastOfGroups, floatDom,
    List.filter_cons, h1, decide_true, if_true, List.filter_nil, argmax, List.foldl_nil,
    List.foldlM_cons, List.foldlM_nil, tryBatch, better, List.map_cons, List.map_nil]
  simp

end Verif.Ifbo
