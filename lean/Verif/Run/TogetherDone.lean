import Verif.Run.TogetherSchemes
import Mathlib.Data.List.Perm.Subperm

/-!
# A worker that stops because of the total has seen that it is reached
-/

namespace Neps.Run

open Neps.Store (Disk Handle)

/-- What worker `w` has counted is there. -/
structure Saw (inc : Bool) (N : Nat) (w : Nat) (W : World) : Prop where
  sweep : ∀ todo seen, (W.worker w).pc = .sweep todo seen → ∃ done : List String,
    (done ++ todo).Subperm W.ids ∧ seen.countP (tal inc) ≤ done.countP (W.talId inc)
  halted : (W.worker w).pc = .stopped .evalsTotal → N ≤ W.tally inc

theorem Saw.trans {fs st W w v W' inc N} (S : Saw inc N v W) (C : Coh fs W)
    (hs : (st v).maxEvalsTotal = some N) (hinc : (st v).includeInProgress = inc)
    (t : Trans fs st W w W') : Saw inc N v W' := by
  have c := (C.effect t).changes C
  have hm : ∀ (l : List String), l.countP (W.talId inc) ≤ l.countP (W'.talId inc) :=
    fun l => List.countP_mono_left (fun x _ hx => c.talId_mono C x hx)
  have hT := c.tally_mono (inc := inc)
  have hids : W.ids.Sublist W'.ids := by
    cases t with
    | idle => simp
    | kill => simp
    | torn => simp
    | step c _ ha s => cases s <;> simp
  have keep : (W'.worker v).pc = (W.worker v).pc → Saw inc N v W' := by
    intro e
    refine ⟨fun todo seen h => ?_, fun h => ?_⟩
    · obtain ⟨done, h1, h2⟩ := S.sweep todo seen (e ▸ h)
      exact ⟨done, h1.trans hids.subperm, h2.trans (hm done)⟩
    · exact (S.halted (e ▸ h)).trans hT
  have away : (∀ todo seen, (W'.worker v).pc ≠ .sweep todo seen) →
      (W'.worker v).pc ≠ .stopped .evalsTotal → Saw inc N v W' :=
    fun h1 h2 => ⟨fun todo seen h => absurd h (h1 todo seen), fun h => absurd h h2⟩
  by_cases e : v = w
  case neg => exact keep (by rw [t.other e])
  subst e
  cases t with
  | idle => exact S
  | kill => exact keep (by simp)
  | torn s loc x n ha hpc => exact keep (by simp)
  | step c _ ha s =>
    cases s with
    | idle => exact S
    | move pc' mv =>
      generalize hpc : (W.worker v).pc = pc at mv
      have hI : (W.goto v pc').talId inc = W.talId inc := rfl
      have hW : (W.goto v pc').ids = W.ids := rfl
      cases mv
      case sweepList l hl =>
        refine ⟨fun todo seen h => ?_, by simp⟩
        simp only [goto_worker, if_true, PC.sweep.injEq] at h
        obtain ⟨rfl, rfl⟩ := h
        exact ⟨[], by simpa using hl.subperm, by simp⟩
      case sweepOk id todo seen h hl =>
        refine ⟨fun todo' seen' h' => ?_, by simp⟩
        simp only [goto_worker, if_true, PC.sweep.injEq] at h'
        obtain ⟨rfl, rfl⟩ := h'
        obtain ⟨done, h1, h2⟩ := S.sweep _ _ hpc
        have e : W.talId inc id = tal inc h.cur := by simp [World.talId, World.stored, hl]
        refine ⟨done ++ [id], by simpa using h1, ?_⟩
        simp only [List.countP_append, List.countP_cons, List.countP_nil, hI, e]
        omega
      case sweepHalt seen h hh =>
        refine ⟨by simp, fun h' => ?_⟩
        simp only [goto_worker, if_true, PC.stopped.injEq] at h'
        subst h'
        obtain ⟨done, h1, h2⟩ := S.sweep _ _ hpc
        have hle := globalCheck_evalsTotal hh
        simp only [reachedN, hs, decide_eq_true_eq] at hle
        rw [evalCount_tal hinc] at hle
        have h3 : done.countP (W.talId inc) ≤ W.ids.countP (W.talId inc) :=
          (by simpa using h1 : done.Subperm W.ids).countP_le _
        rw [← countP_stored inc W W.ids] at h3
        exact hle.trans (h2.trans h3)
      case haltTop wall h hr hh =>
        refine away (by simp) ?_
        simp only [goto_worker, if_true, ne_eq, PC.stopped.injEq]
        exact localCheck_ne hr
      case haltErr h hr hh =>
        refine away (by simp) ?_
        simp only [goto_worker, if_true, ne_eq, PC.stopped.injEq]
        exact sharedErrCheck_ne' hr
      all_goals exact away (by simp) (by simp)
    | claimLost id h pc' n hpc hv ho =>
      rcases ho with ⟨rfl, _⟩ | rfl | rfl <;> exact away (by simp) (by simp)
    | budget t r pc' hpc ho =>
      rcases ho with ⟨rfl, _⟩ | ⟨_, _, rfl⟩ <;> exact away (by simp) (by simp)
    | _ => exact away (by simp) (by simp)

theorem saw_run {fs st v N} (hs : (st v).maxEvalsTotal = some N) (as : List Act) :
    Saw (st v).includeInProgress N v (run fs st {} as) := by
  have := run_induction fs st (P := fun W => Coh fs W ∧ Saw (st v).includeInProgress N v W) (W := {})
    (fun W w W' I t => ⟨I.1.trans t, I.2.trans I.1 hs rfl t⟩)
    ⟨Coh.init fs, ⟨by simp, by simp⟩⟩ as
  exact this.2

end Neps.Run
