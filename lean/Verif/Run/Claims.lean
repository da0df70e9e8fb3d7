import Verif.Run.Coherence
import Mathlib.Data.List.Perm.Subperm
import Mathlib.Data.List.Count

/-!
# Invariants about claims, evaluations and the life of a trial
-/

namespace Neps.Run

open Neps.Store (Disk Handle)

/-- How often `id` was claimed from a copy that said PENDING. -/
def pendingClaims (log : List Event) (id : String) : Nat :=
  (claims log).countP (fun c => c.2.1 == id && c.2.2.state == .pending)

/-- A trial is claimed from a PENDING copy at most once. -/
structure ClaimInv (W : World) : Prop where
  once : ∀ id, pendingClaims W.log id ≤ 1
  absent : ∀ id, (W.disk id).data = none → pendingClaims W.log id = 0
  pending : ∀ id t, (W.disk id).data = some t → t.state = .pending → pendingClaims W.log id = 0

theorem ClaimInv.effect {fs W w W'} (C : Coh fs W) (I : ClaimInv W) (e : Effect fs W w W') :
    ClaimInv W' := by
  cases e with
  | none hids hdisk hc =>
    have hp : ∀ id, pendingClaims W'.log id = pendingClaims W.log id := by
      intro id; simp [pendingClaims, hc]
    exact ⟨fun id => hp id ▸ I.once id, fun id => by rw [hp, hdisk]; exact I.absent id,
      fun id => by rw [hp, hdisk]; exact I.pending id⟩
  | created id t hi hids hdisk hs hr hn hc hh hsm =>
    have hp : ∀ id, pendingClaims W'.log id = pendingClaims W.log id := by
      intro id; simp [pendingClaims, hc]
    refine ⟨fun id => hp id ▸ I.once id, fun id' => ?_, fun id' t' => ?_⟩
    · rw [hp, hdisk]
      by_cases e : id' = id
      · simp [e]
      · simp only [e, if_false]; exact I.absent id'
    · rw [hp, hdisk]
      by_cases e : id' = id
      · subst e; intro _ _; exact I.absent _ (C.fresh _ hi).2
      · simp only [e, if_false]; exact I.pending id' t'
  | torn id v n hi hids hdisk hc =>
    have hp : ∀ id, pendingClaims W'.log id = pendingClaims W.log id := by
      intro id; simp [pendingClaims, hc]
    refine ⟨fun id => hp id ▸ I.once id, fun id' => ?_, fun id' t' => ?_⟩
    · rw [hp, hdisk]
      by_cases e : id' = id
      · subst e; intro _; exact I.absent _ (C.fresh _ hi).2
      · simp only [e, if_false]; exact I.absent id'
    · rw [hp, hdisk]
      by_cases e : id' = id
      · simp [e]
      · simp only [e, if_false]; exact I.pending id' t'
  | claimed id h now hi hpc hv hd hids hdisk hc =>
    have hp : ∀ id', pendingClaims W'.log id' = pendingClaims W.log id' +
        (if id' = id ∧ h.cur.state = .pending then 1 else 0) := by
      intro id'
      simp only [pendingClaims, hc, List.countP_cons, Bool.and_eq_true, beq_iff_eq]
      congr 1
      simp only [eq_comm]
    have hz : h.cur.state = .pending → pendingClaims W.log id = 0 := I.pending id _ hd
    refine ⟨fun id' => ?_, fun id' => ?_, fun id' t' => ?_⟩
    · rw [hp]
      split
      · next h' => rw [h'.1, hz h'.2]
      · exact I.once id'
    · rw [hp, hdisk]
      by_cases e : id' = id
      · simp [e]
      · simp only [e, if_false, false_and, Nat.add_zero]; exact I.absent id'
    · rw [hp, hdisk]
      by_cases e : id' = id
      · simp only [e, if_true, Option.some.injEq]
        rintro rfl hs
        simp [Trial.setEvaluating] at hs
      · simp only [e, if_false, false_and, Nat.add_zero]; exact I.pending id' t'
  | reported id h t r hi hpc hv hd hs hsp hst hid hids hdisk hc =>
    have hp : ∀ id, pendingClaims W'.log id = pendingClaims W.log id := by
      intro id; simp [pendingClaims, hc]
    refine ⟨fun id => hp id ▸ I.once id, fun id' => ?_, fun id' t' => ?_⟩
    · rw [hp, hdisk]
      by_cases e : id' = id
      · simp [e]
      · simp only [e, if_false]; exact I.absent id'
    · rw [hp, hdisk]
      by_cases e : id' = id
      · simp only [e, if_true, Option.some.injEq]
        rintro rfl hs'
        simp only [hst] at hs'
        cases hr : r.reportedAs <;> simp [hr, ReportedAs.state] at hs'
      · simp only [e, if_false]; exact I.pending id' t'

theorem claimInv_run (fs st as) : ClaimInv (run fs st {} as) := by
  have := run_induction fs st (P := fun W => Coh fs W ∧ ClaimInv W)
    (fun W w W' I t => ⟨I.1.trans t, I.2.effect I.1 (I.1.effect t)⟩)
    (W := {}) ⟨Coh.init fs, ⟨by simp [pendingClaims, claims], by simp [pendingClaims, claims],
      by simp [pendingClaims, claims]⟩⟩ as
  exact this.2

/-- The trial a worker is about to evaluate. -/
def PC.evaluatingId : PC → Option String
  | .eval id _ => some id
  | _ => none

/-- Every evaluation is preceded by a claim of the same worker. -/
def EvalInv (W : World) : Prop :=
  ∀ w id, (evaluations W.log).count (w, id) +
    (if (W.worker w).pc.evaluatingId = some id then 1 else 0) ≤
    ((claims W.log).map (fun c => (c.1, c.2.1))).count (w, id)

/-- A transition of worker `w` that leaves it not evaluating and logs neither a claim nor an
evaluation. -/
theorem EvalInv.local {W : World} (I : EvalInv W) (W' : World) (w : Nat)
    (he : evaluations W'.log = evaluations W.log) (hc : claims W'.log = claims W.log)
    (hw : ∀ w', w' ≠ w → (W'.worker w').pc = (W.worker w').pc)
    (hn : (W'.worker w).pc.evaluatingId = none) : EvalInv W' := by
  intro w' id
  have := I w' id
  rw [he, hc]
  by_cases e : w' = w
  · subst e; rw [hn]; simp only [reduceCtorEq, if_false]; omega
  · rw [hw w' e]; exact this

theorem Move.evaluatingId_none {st W x pc pc'} (m : Move st W x pc pc') :
    pc'.evaluatingId = none := by
  cases m <;> rfl

theorem EvalInv.trans {fs st W w W'} (I : EvalInv W) (t : Trans fs st W w W') : EvalInv W' := by
  cases t with
  | idle => exact I
  | kill =>
    intro w' id
    have := I w' id
    by_cases e : w' = w
    · subst e; simpa using this
    · simpa [e] using this
  | torn s loc v n ha hpc hl hi hvn =>
    intro w' id
    have := I w' id
    by_cases e : w' = w
    · subst e; simpa using this
    · simpa [e] using this
  | step c _ ha s =>
    cases s with
    | idle => exact I
    | move pc' m =>
      exact I.local _ w rfl rfl (by intro w' e; simp [e]) (by simpa using m.evaluatingId_none)
    | fetch id h hpc hl =>
      exact I.local _ w rfl rfl (by intro w' e; simp [e]) (by simp [PC.evaluatingId])
    | create s loc hpc hs hl hi hv =>
      exact I.local _ w rfl rfl (by intro w' e; simp [e]) (by simp [PC.evaluatingId])
    | claimOk id h hpc hv =>
      intro w' id'
      have := I w' id'
      simp only [emit_log, setW_log, setDisk_log, claims, evaluations, List.map_cons,
        List.count_cons, emit_worker, setW_worker, setDisk_worker]
      by_cases e : w' = w
      · subst e
        simp only [if_true, PC.evaluatingId, Option.some.injEq, beq_iff_eq, Prod.mk.injEq, true_and]
        split <;> omega
      · simp only [e, if_false]
        omega
    | claimLost id h pc' n hpc hv ho =>
      refine I.local _ w rfl rfl (by intro w' e; simp [e]) ?_
      simp only [emit_worker, setW_worker, if_true]
      rcases ho with ⟨rfl, _⟩ | rfl | rfl <;> rfl
    | evalErr id h e hpc he =>
      intro w' id'
      have := I w' id'
      simp only [emit_log, goto_log, claims, evaluations, List.count_cons, emit_worker,
        goto_worker, beq_iff_eq, Prod.mk.injEq]
      by_cases e : w' = w
      · subst e
        rw [hpc] at this
        simp only [PC.evaluatingId, Option.some.injEq] at this
        simp only [if_true, PC.evaluatingId, true_and, reduceCtorEq, if_false]
        omega
      · simp only [e, if_false, Ne.symm (Ne.intro e), false_and]
        exact this
    | evalOk id h t r hpc he =>
      intro w' id'
      have := I w' id'
      simp only [emit_log, setW_log, claims, evaluations, List.count_cons, emit_worker,
        setW_worker, beq_iff_eq, Prod.mk.injEq]
      by_cases e : w' = w
      · subst e
        rw [hpc] at this
        simp only [PC.evaluatingId, Option.some.injEq] at this
        simp only [if_true, PC.evaluatingId, true_and, reduceCtorEq, if_false]
        omega
      · simp only [e, if_false, Ne.symm (Ne.intro e), false_and]
        exact this
    | reportOk id h t r hpc hv =>
      exact I.local _ w rfl rfl (by intro w' e; simp [e]) (by simp [PC.evaluatingId])
    | budget t r pc' hpc ho =>
      refine I.local _ w rfl rfl (by intro w' e; simp [e]) ?_
      simp only [emit_worker, goto_worker, if_true]
      rcases ho with ⟨rfl, _⟩ | ⟨_, _, rfl⟩ <;> rfl
    | logErr t r e hpc =>
      exact I.local _ w rfl rfl (by intro w' e; simp [e]) (by simp [PC.evaluatingId])

theorem evalInv_run (fs st as) : EvalInv (run fs st {} as) :=
  run_induction fs st (fun _ _ _ I t => I.trans t) (by
    intro w id; simp [evaluations, claims, PC.evaluatingId]) as

/-- At most as many evaluations as claims. -/
theorem evaluated_le_claimed {W : World} (I : EvalInv W) (id : String) :
    timesEvaluated W.log id ≤ (claims W.log).countP (fun c => c.2.1 == id) := by
  have hsub : (evaluations W.log).Subperm ((claims W.log).map (fun c => (c.1, c.2.1))) := by
    rw [List.subperm_ext_iff]
    rintro ⟨w, id⟩ _
    have := I w id
    omega
  have := hsub.countP_le (fun p => p.2 == id)
  rw [List.countP_map] at this
  exact this

end Neps.Run
