import Verif.Bo.Weighted

/-!
# Property C145: configurations that are being evaluated count exactly once
-/

namespace Verif.Bo

open Acq

variable {P : Type}

/-- Specification: the value of evaluating the configurations `xs` together, when every value is
weighted at its own configuration before the configurations and the samples are reduced. -/
noncomputable def jointValue (b : BaseAcq P) (w : P → ℝ → ℝ) (xs : List P) : ℝ :=
  b.sRed ((List.range b.samples).map fun s => b.qRed (List.zipWith w xs (b.value s xs)))

theorem allSamples_some (f : ℕ → Option ℝ) (g : ℕ → ℝ) (ss : List ℕ) (h : ∀ s, f s = some (g s)) :
    allSamples f ss = some (ss.map g) := by
  induction ss with
  | nil => rfl
  | cons s ss ih => simp [allSamples, h s, ih]

theorem broadcast_same (w : P → ℝ → ℝ) (xs : List P) (vals : List ℝ) (h : vals.length = xs.length) :
    broadcast w xs vals = some (List.zipWith w xs vals) := by
  unfold broadcast
  rw [if_pos h.symm]

theorem forward_one (b : BaseAcq P) (p : Option (List P)) (w : Bool → P → ℝ → ℝ) (xs : List P) :
    ((base b p).weight w).forward xs = some [jointValue b (w b.log) (xs ++ p.getD [])] := by
  have hw : (base b p).weight w = weighted (base b none) w p := by
    cases p <;> rfl
  rw [hw]
  simp only [Acq.forward, withPending]
  rw [allSamples_some _ (fun s => b.qRed (List.zipWith (w b.log) (xs ++ p.getD [])
    (b.value s (xs ++ p.getD []))))]
  · rfl
  · intro s
    rw [broadcast_same _ _ _ (b.shape _ _)]
    rfl

theorem forward_two (b : BaseAcq P) (p : Option (List P)) (w w' : Bool → P → ℝ → ℝ)
    (xs : List P) :
    (((base b p).weight w).weight w').forward xs =
      broadcast (w' b.log) (xs ++ p.getD [])
        [jointValue b (w b.log) (xs ++ p.getD [])] := by
  have hw : ((base b p).weight w).weight w' = weighted ((base b none).weight w) w' p := by
    cases p <;> rfl
  have hi : (base b none).weight w = weighted (base b none) w none := rfl
  have h := forward_one b none w (xs ++ p.getD [])
  rw [hw]
  rw [hi] at h ⊢
  simp only [Acq.forward, withPending] at h ⊢
  simp only [Option.getD_none, List.append_nil] at h ⊢
  rw [h]
  rfl

/-- C145. Without a prior and without costs, the value of a candidate is the joint value of the
candidate and of every configuration that is being evaluated, each once. -/
theorem C145_plain (b : BaseAcq P) (pending : List P) (x : P) :
    ∃ a, acquireFrom b (some pending) none none = some a ∧
      a.forward [x] = some [jointValue b (fun _ v => v) (x :: pending)] := by
  refine ⟨_, rfl, ?_⟩
  have hz : ∀ (xs : List P) (vs : List ℝ), vs.length = xs.length →
      List.zipWith (fun _ v => v) xs vs = vs := by
    intro xs
    induction xs with
    | nil => intro vs h; cases vs <;> simp_all
    | cons a as ih =>
      intro vs h
      cases vs with
      | nil => simp at h
      | cons v vs => simp at h; simp [ih vs h]
  simp [Acq.forward, withPending, jointValue, hz _ _ (b.shape _ _)]

/-- C145. With a prior alone, the candidate and every configuration that is being evaluated count
exactly once, each weighted by the prior at its own place. -/
theorem C145_prior (b : BaseAcq P) (pending : List P) (logp : P → ℝ) (e : ℝ) (x : P) :
    ∃ a, acquireFrom b (some pending) (some (logp, e)) none = some a ∧
      a.forward [x] =
        some [jointValue b (fun c v => piboWeight b.log v (logp c) e) (x :: pending)] :=
  ⟨_, rfl, forward_one b (some pending) (piboW logp e) [x]⟩

/-- C145. With costs alone, the candidate and every configuration that is being evaluated count
exactly once, each weighted by its own predicted cost. -/
theorem C145_cost (b : BaseAcq P) (pending : List P) (cost : P → ℝ) (used : ℝ) (h0 : 0 ≤ used)
    (h1 : used ≤ 1) (x : P) :
    ∃ a, acquireFrom b (some pending) none (some (cost, used)) = some a ∧
      a.forward [x] =
        some [jointValue b (fun c v => costCooling b.log v (cost c) (1 - used)) (x :: pending)] := by
  refine ⟨(base b (some pending)).weight (costW cost (1 - used)), ?_,
    forward_one b (some pending) (costW cost (1 - used)) [x]⟩
  simp [acquireFrom, coolingAlpha, h0, h1]

/-- C145, only when nothing is being evaluated: with a prior and costs, the value of a candidate is
its value weighted by the prior, weighted by its cost.  Missing: with pending configurations there
is no single value, `C145_prior_and_cost_fails`. -/
theorem C145_prior_and_cost_partial (b : BaseAcq P) (logp cost : P → ℝ) (e used : ℝ) (h0 : 0 ≤ used)
    (h1 : used ≤ 1) (x : P) :
    ∃ a, acquireFrom b none (some (logp, e)) (some (cost, used)) = some a ∧
      a.forward [x] = some [costCooling b.log
        (jointValue b (fun c v => piboWeight b.log v (logp c) e) [x]) (cost x) (1 - used)] := by
  refine ⟨((base b none).weight (piboW logp e)).weight (costW cost (1 - used)), ?_, ?_⟩
  · simp [acquireFrom, coolingAlpha, h0, h1]
  · rw [forward_two]
    rfl

/-- C145 fails with a prior and costs: as soon as one configuration is being evaluated, no
candidate has a value. Instead of one number there are as many as configurations, one per
configuration that is being evaluated besides the candidate's. -/
theorem C145_prior_and_cost_fails (b : BaseAcq P) (pending : List P) (hp : pending ≠ [])
    (logp cost : P → ℝ) (e used : ℝ) (h0 : 0 ≤ used) (h1 : used ≤ 1) (x : P) :
    ∃ a vals, acquireFrom b (some pending) (some (logp, e)) (some (cost, used)) = some a ∧
      a.forward [x] = some vals ∧ vals.length = pending.length + 1 ∧ ∀ v, vals ≠ [v] := by
  refine ⟨((base b (some pending)).weight (piboW logp e)).weight (costW cost (1 - used)), ?_⟩
  obtain ⟨y, ys, rfl⟩ := List.exists_cons_of_ne_nil hp
  refine ⟨(x :: y :: ys).map fun c => costW cost (1 - used) b.log c
    (jointValue b (piboW logp e b.log) (x :: y :: ys)), ?_, ?_, ?_, ?_⟩
  · simp [acquireFrom, coolingAlpha, h0, h1]
  · rw [forward_two]
    simp [broadcast]
  · simp
  · intro v h
    have := congrArg List.length h
    simp at this

/-- The reductions of the base acquisition function never prefer smaller values; botorch's smooth
maximum and its mean are such. -/
def MonoRed (f : List ℝ → ℝ) : Prop := ∀ l l', List.Forall₂ (· ≤ ·) l l' → f l ≤ f l'

theorem jointValue_mono (b : BaseAcq P) (hq : MonoRed b.qRed) (hs : MonoRed b.sRed)
    (w : P → ℝ → ℝ) (x x' : P) (pending : List P)
    (hv : ∀ s, b.value s (x :: pending) = b.value s (x' :: pending))
    (hw : ∀ v, w x v ≤ w x' v) :
    jointValue b w (x :: pending) ≤ jointValue b w (x' :: pending) := by
  apply hs
  induction List.range b.samples with
  | nil => exact .nil
  | cons s ss ih =>
    refine .cons ?_ ih
    apply hq
    rw [hv s]
    cases b.value s (x' :: pending) with
    | nil => exact .nil
    | cons v vs =>
      refine .cons (hw v) ?_
      exact List.forall₂_same.2 fun _ _ => le_rfl

/-- C145. Whatever is being evaluated: of two candidates that the surrogate finds equally
promising, the one the prior finds more likely is not ranked lower. -/
theorem C145_likelier_not_worse (b : BaseAcq P) (hl : b.log = true) (hq : MonoRed b.qRed)
    (hs : MonoRed b.sRed) (pending : List P) (logp : P → ℝ) (e : ℝ) (x x' : P)
    (hv : ∀ s, b.value s (x :: pending) = b.value s (x' :: pending)) (h : logp x ≤ logp x') :
    ∃ a v v', acquireFrom b (some pending) (some (logp, e)) none = some a ∧
      a.forward [x] = some [v] ∧ a.forward [x'] = some [v'] ∧ v ≤ v' := by
  refine ⟨_, _, _, rfl, forward_one b (some pending) (piboW logp e) [x],
    forward_one b (some pending) (piboW logp e) [x'], ?_⟩
  apply jointValue_mono b hq hs _ _ _ _ hv
  intro v
  simp only [piboW, piboWeight, hl, if_true]
  linarith

/-- C145. Whatever is being evaluated: of two candidates that the surrogate finds equally
promising, the cheaper one is not ranked lower. -/
theorem C145_cheaper_not_worse (b : BaseAcq P) (hl : b.log = true) (hq : MonoRed b.qRed)
    (hs : MonoRed b.sRed) (pending : List P) (cost : P → ℝ) (used : ℝ) (h0 : 0 ≤ used)
    (h1 : used ≤ 1) (x x' : P)
    (hv : ∀ s, b.value s (x :: pending) = b.value s (x' :: pending)) (hc : 0 < cost x')
    (h : cost x' ≤ cost x) :
    ∃ a v v', acquireFrom b (some pending) none (some (cost, used)) = some a ∧
      a.forward [x] = some [v] ∧ a.forward [x'] = some [v'] ∧ v ≤ v' := by
  refine ⟨(base b (some pending)).weight (costW cost (1 - used)), _, _, ?_,
    forward_one b (some pending) (costW cost (1 - used)) [x],
    forward_one b (some pending) (costW cost (1 - used)) [x'], ?_⟩
  · simp [acquireFrom, coolingAlpha, h0, h1]
  apply jointValue_mono b hq hs _ _ _ _ hv
  intro v
  simp only [costW, costCooling, hl, if_true]
  have hlog := Real.log_le_log hc h
  have := mul_le_mul_of_nonneg_left hlog (sub_nonneg.2 h1)
  linarith

/-- Non-vacuity: two samples whose values depend on the whole group, reduced by sums. -/
def sumAcq : BaseAcq ℕ where
  log := true
  samples := 2
  value s xs := xs.map fun x => (x : ℝ) + s + xs.length
  shape := by simp
  qRed := List.sum
  sRed := List.sum

theorem monoRed_sum : MonoRed List.sum := fun _ _ h => List.Forall₂.sum_le_sum h

example : MonoRed sumAcq.qRed ∧ MonoRed sumAcq.sRed ∧ sumAcq.log = true :=
  ⟨monoRed_sum, monoRed_sum, rfl⟩

/-- A pending configuration changes the value of a candidate, and counting it twice would give
another value again. -/
example : jointValue sumAcq (fun _ v => v) [1] = 5 ∧
    jointValue sumAcq (fun _ v => v) [1, 3] = 18 ∧
    jointValue sumAcq (fun _ v => v) [1, 3, 3] = 35 := by
  simp [jointValue, sumAcq, List.range_succ]
  norm_num

end Verif.Bo
