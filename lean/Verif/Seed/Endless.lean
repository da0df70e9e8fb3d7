import Verif.Seed.MFProps
import Verif.Seed.Props
import Verif.Run.SurvivorProps
import Verif.Run.Success

/-!
# Endless schedules of a run with its generators
-/

namespace Neps.Seed

open Neps.Run

variable {G O E : Type}

/-- The run after the first `k` actions of an endless schedule. -/
def safter (A : Optimizer G O E) (fs : String → Option PyFloat) (st : Nat → Settings)
    (r₀ : Rng G) (rng : Nat → Rng G) (τ : Nat → SAct G E) (k : Nat) : SWorld G O E :=
  srun A fs st (start A r₀ rng) ((List.range k).map τ)

/-- The step of the worker transition system that an action is. -/
def baseAct (A : Optimizer G O E) (W : SWorld G O E) : SAct G E → Act
  | .act (.step w c) e _ =>
    if samples W.base w then .step w { c with ask := (propose A W w c e).map (·.2.1) } else .step w c
  | .act a _ _ => a
  | .killSampling w _ _ => .kill w

theorem sact_step_base (A : Optimizer G O E) (fs st) (W : SWorld G O E) (w c e noise) :
    (sact A fs st W (.act (.step w c) e noise)).base =
      act fs st W.base (baseAct A W (.act (.step w c) e noise)) := by
  simp only [sact, baseAct]
  split
  · unfold Seed.sample
    split
    · next h => rw [h]; rfl
    · next h s o r hp =>
      rw [hp]
      simp only [Option.map_some]
      split <;> rfl
  · rfl

theorem safter_succ (A : Optimizer G O E) (fs st r₀ rng τ k) :
    safter A fs st r₀ rng τ (k + 1) = sact A fs st (safter A fs st r₀ rng τ k) (τ k) := by
  simp [safter, List.range_succ, srun]

theorem act_ids_length (fs st) (W : World) (a : Act) :
    W.ids.length ≤ (act fs st W a).ids.length := by
  have t := act_trans fs st W a
  generalize act fs st W a = W' at t
  cases t with
  | step c _ _ s => cases s <;> simp
  | _ => simp

theorem trials_of_readable {W : World} (h : Readable W) (C : ∀ id t, (W.disk id).data = some t →
    t.metadata.id = id) : W.trials.map (·.metadata.id) = W.ids := by
  unfold World.trials
  have : ∀ l : List String, (∀ id ∈ l, (W.stored id).isSome) →
      (l.filterMap W.stored).map (·.metadata.id) = l := by
    intro l
    induction l with
    | nil => simp
    | cons id l ih =>
      intro h
      obtain ⟨t, ht⟩ := Option.isSome_iff_exists.mp (h id (by simp))
      rw [List.filterMap_cons, ht]
      simp only [List.map_cons]
      rw [ih (fun x hx => h x (by simp [hx])), C id t (stored_eq_some.mp ht).2]
  exact this W.ids h

/-- A new trial is stored, whatever the worker and its generators are, as long as `R` holds. -/
def Stores (A : Optimizer G O E) (fs : String → Option PyFloat) (st : Nat → Settings) (r₀ : Rng G)
    (rng : Nat → Rng G) (R : World → Prop) : Prop :=
  ∀ (as : List (SAct G E)) (w : Nat) (c : Choice) (e : E) (noise : Rng G),
    let W := srun A fs st (start A r₀ rng) as
    (∀ id ∈ W.base.ids, (W.base.stored id).isSome) → (W.base.worker w).alive = true →
    (W.base.worker w).pc = .sample → R W.base →
    (sact A fs st W (.act (.step w c) e noise)).base.ids ≠ W.base.ids

/-- If sampling stores a trial, the optimizer has answered with a new id. -/
theorem answered_of_grow {fs st} {W : World} {w : Nat} {c : Choice} (hs : samples W w = true)
    (h : (act fs st W (.step w c)).ids ≠ W.ids) :
    ∃ p, c.ask = some p ∧ p.id ∉ W.ids ∧ ∀ q, p.previousId = some q → q ∈ W.ids := by
  cases ha : c.ask with
  | none =>
    have : c = { c with ask := none } := by cases c; simp_all
    rw [this] at h
    exact absurd (act_none_ids hs) h
  | some p =>
    have hc : c = { c with ask := some p } := by cases c; simp_all
    rw [hc] at h
    obtain ⟨loc, hl, -⟩ := act_sample_trials hs h
    refine ⟨p, rfl, (act_sample hs h).1, fun q hq => ?_⟩
    unfold prepareSample at hl
    simp only [hq] at hl
    by_contra hn
    simp [hn] at hl

/-- If every call of the objective returns, no trial fails. -/
theorem safter_no_failure (A : Optimizer G O E) (fs : String → Option PyFloat) (st : Nat → Settings)
    (r₀ : Rng G) (rng : Nat → Rng G) (τ : Nat → SAct G E)
    (hτ : ∀ i, ∃ w c e noise, τ i = .act (.step w c) e noise ∧ ∃ v, c.outcome = .returned v) (i : Nat) :
    ∀ t ∈ (safter A fs st r₀ rng τ i).base.trials, ¬ Failed t := by
  have hbase : (safter A fs st r₀ rng τ i).base = run fs st {} ((List.range i).map (fun i =>
      baseAct A (safter A fs st r₀ rng τ i) (τ i))) := by
    induction i with
    | zero => rfl
    | succ i ih =>
      obtain ⟨w, c, e, noise, h, -⟩ := hτ i
      have : ∀ f : Nat → Act, run fs st {} ((List.range (i + 1)).map f) =
          act fs st (run fs st {} ((List.range i).map f)) (f i) := by
        intro f; simp [List.range_succ, run]
      rw [safter_succ, this, ← ih, h, sact_step_base, ← h]
  have hstep : ∀ i, ∃ w c, baseAct A (safter A fs st r₀ rng τ i) (τ i) = .step w c ∧
      ∃ v, c.outcome = .returned v := by
    intro i
    obtain ⟨w, c, e, noise, h, hv⟩ := hτ i
    simp only [h, baseAct]
    split
    · exact ⟨_, _, rfl, hv⟩
    · exact ⟨_, _, rfl, hv⟩
  rw [hbase]
  rintro t ht ⟨r, hr, hne⟩
  refine hne (no_failure fs st _ ?_ ?_ t ht r hr)
  · intro a ha w c e
    obtain ⟨i, _, rfl⟩ := List.mem_map.mp ha
    obtain ⟨w', c', h, hv⟩ := hstep i
    rw [h] at e
    simp only [Act.step.injEq] at e
    rw [← e.2]
    exact hv
  · intro a ha w c torn e
    obtain ⟨i, _, rfl⟩ := List.mem_map.mp ha
    obtain ⟨w', c', h, hv⟩ := hstep i
    rw [h] at e
    simp at e

/-- Workers with `max_evaluations_total = N` as the only limit do the job if the optimizer answers. -/
theorem stores_job_done (A : Optimizer G O E) (fs : String → Option PyFloat) (st : Nat → Settings)
    (r₀ : Rng G) (rng : Nat → Rng G) {R : World → Prop}
    (hans : Stores A fs st r₀ rng R) (n N : Nat) (inc : Bool) (hn : 0 < n)
    (hs : ∀ w < n, OnlyTotal (st w) N ∧ (st w).includeInProgress = inc)
    (τ : Nat → SAct G E) (hτ : ∀ i, ∃ w < n, ∃ c e noise, τ i = .act (.step w c) e noise)
    (hf : ∀ w < n, ∀ k, ∃ j ≥ k, ∃ c e noise, τ j = .act (.step w c) e noise)
    (hp : ∀ i w c e noise v, τ i = .act (.step w c) e noise → c.outcome = .returned v →
      ∃ p, parseUserResult fs v (st w).dv.costIfNotProvided
        (st w).dv.learningCurveIfNotProvided = .ok p)
    (hR : ∀ i, R (safter A fs st r₀ rng τ i).base) :
    ∃ k, ∀ j ≥ k,
      let W := (safter A fs st r₀ rng τ j).base
      N ≤ W.trials.length ∧ (∀ t ∈ W.trials, Evaluated t) ∧
      (∃ w < n, (W.worker w).pc = .stopped .evalsTotal) ∧ ∀ w < n, Through W w := by
  let X := safter A fs st r₀ rng τ
  let σ : Nat → Act := fun i => baseAct A (X i) (τ i)
  have hbase : ∀ i, (X i).base = Run.after fs st σ i := by
    intro i
    induction i with
    | zero => rfl
    | succ i ih =>
      obtain ⟨w, _, c, e, noise, h⟩ := hτ i
      change (safter A fs st r₀ rng τ (i + 1)).base = _
      rw [safter_succ, after_succ, ← ih, h, sact_step_base, ← h]
  have hstep : ∀ i w c e noise, τ i = .act (.step w c) e noise →
      ∃ c', σ i = .step w c' ∧ c'.outcome = c.outcome := by
    intro i w c e noise h
    simp only [σ, h, baseAct]
    split
    · exact ⟨_, rfl, rfl⟩
    · exact ⟨_, rfl, rfl⟩
  have hσ : ∀ i, ∃ w < n, ∃ c, σ i = .step w c := by
    intro i
    obtain ⟨w, hw, c, e, noise, h⟩ := hτ i
    obtain ⟨c', h', -⟩ := hstep i w c e noise h
    exact ⟨w, hw, c', h'⟩
  have hS : ∀ i, Safe (Run.after fs st σ i) := fun i => safe_run _ (by
    intro a ha
    obtain ⟨i, _, rfl⟩ := List.mem_map.mp ha
    intro w' c' torn e
    obtain ⟨w, hw, c, h⟩ := hσ i
    rw [h] at e; simp at e) (Coh.init fs) Safe.init
  have h1 : Fair n σ := by
    intro w hw m
    obtain ⟨j, hj, c, e, noise, h⟩ := hf w hw m
    obtain ⟨c', h', -⟩ := hstep j w c e noise h
    exact ⟨j, hj, c', h'⟩
  have h2 : ∀ i, Understood fs st (σ i) := by
    intro i w c v h hv
    obtain ⟨w', hw, c', e, noise, h'⟩ := hτ i
    obtain ⟨c'', h1, h2⟩ := hstep i w' c' e noise h'
    rw [h1] at h
    simp only [Act.step.injEq] at h
    obtain ⟨rfl, rfl⟩ := h
    exact hp i w' c' e noise v h' (h2 ▸ hv)
  have h4 : ∀ i, Answered (Run.after fs st σ i) (σ i) := by
    intro i w c h hpc
    obtain ⟨w', hw, c', e, noise, h'⟩ := hτ i
    obtain ⟨c'', h1, -⟩ := hstep i w' c' e noise h'
    have h1' := h1
    rw [h] at h1
    simp only [Act.step.injEq] at h1
    obtain ⟨rfl, rfl⟩ := h1
    have hal : ((Run.after fs st σ i).worker w).alive = true :=
      after_alive (fun i => (hσ i).imp (fun w h => h.2)) i w
    have hgrow := hans ((List.range i).map τ) w c' e noise (by
      change ∀ id ∈ (X i).base.ids, ((X i).base.stored id).isSome
      rw [hbase i]; exact (hS i).readable) (by
      change ((X i).base.worker w).alive = true
      rw [hbase i]; exact hal) (by
      change ((X i).base.worker w).pc = _
      rw [hbase i]; exact hpc) (hR i)
    change (sact A fs st (X i) _).base.ids ≠ (X i).base.ids at hgrow
    rw [sact_step_base, ← h', show baseAct A (X i) (τ i) = σ i from rfl, h, hbase i] at hgrow
    exact answered_of_grow (by simp [samples, hal, hpc]) hgrow
  obtain ⟨k, hk⟩ := C147_job_done fs st n N inc hn hs σ hσ h1 h2 h4
  refine ⟨k, fun j hj => ?_⟩
  rw [show (safter A fs st r₀ rng τ j).base = Run.after fs st σ j from hbase j]
  exact hk j hj

end Neps.Seed
