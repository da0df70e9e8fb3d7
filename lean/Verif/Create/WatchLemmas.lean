import Verif.Create.WatchSpec
import Verif.Create.Schedule
import Mathlib.Data.List.Induction

/-!
# Lemmas about looking at a run
-/

namespace Neps.Create

variable {V : Type} {F : Format V}

theorem sceneRun_append (S : Scene V) (s t : List (SceneAct V)) :
    sceneRun F S (s ++ t) = sceneRun F (sceneRun F S s) t := by
  induction s generalizing S with
  | nil => rfl
  | cons a s ih => exact ih _

theorem workOf_append (s t : List (SceneAct V)) : workOf (s ++ t) = workOf s ++ workOf t := by
  induction s with
  | nil => rfl
  | cons a s ih => cases a <;> simp [workOf, ih]

/-- A process does not delete the root directory. -/
theorem root_act {W : World V} (h : W.root = true) (a : Act V) : (act F W a).root = true := by
  cases a with
  | call p g => simp only [act]; split <;> exact h
  | kill p => exact h
  | put r v =>
    simp only [act]
    split
    · exact h
    · split <;> exact h
    · exact h
  | step p =>
    simp only [act, step]
    split
    · exact h
    · exact h
    · exact h
    · exact h
    · rfl
    · split <;> exact h
    · split
      · split <;> exact h
      · exact h
    · exact h
    · split <;> exact h
    · split
      · split <;> exact h
      · exact h

/-- A resource that is on disk stays on disk, with some value. -/
theorem has_act {W : World V} (I : Inv F W) {r : Res} {v : V} (h : W.Has r v) (a : Act V) :
    ∃ w, (act F W a).Has r w := by
  unfold World.Has at *
  have hno : ∀ p, (W.proc p).pc ≠ .openFile r ∧ (W.proc p).pc ≠ .fill r := by
    intro p
    constructor
    · intro hp; have := I.opening p _ hp; rw [h] at this; cases this
    · intro hp; have := I.filling p _ hp; rw [h] at this; cases this
  cases a with
  | call p g =>
    simp only [act]
    split <;> exact ⟨v, h⟩
  | kill p => exact ⟨v, h⟩
  | put r' v' =>
    simp only [act]
    split
    · exact ⟨v, h⟩
    · rename_i r2 _ _ _ _ _ _ _ _
      split
      · by_cases hr : r = r2
        · subst hr
          exact ⟨_, by simp only [set_same]; rw [h]⟩
        · exact ⟨v, by simp only [set_ne _ _ hr]; exact h⟩
      · exact ⟨v, h⟩
    · exact ⟨v, h⟩
  | step p =>
    simp only [act, step]
    split
    · exact ⟨v, h⟩
    · exact ⟨v, h⟩
    · exact ⟨v, h⟩
    · exact ⟨v, h⟩
    · exact ⟨v, h⟩
    · split <;> exact ⟨v, h⟩
    · next r' hr =>
      split
      · split
        · exact ⟨v, h⟩
        · next hver =>
          have : r ≠ r' := by rintro rfl; rw [h] at hver; simp at hver
          exact ⟨v, by simp only [set_ne _ _ this]; exact h⟩
      · exact ⟨v, h⟩
    · next r' hr =>
      have : r ≠ r' := by rintro rfl; exact (hno p).1 hr
      exact ⟨v, by simp only [set_ne _ _ this]; exact h⟩
    · next r' hr =>
      have : r ≠ r' := by rintro rfl; exact (hno p).2 hr
      split
      · exact ⟨v, h⟩
      · exact ⟨v, by simp only [set_ne _ _ this]; exact h⟩
    · split
      · split <;> exact ⟨v, h⟩
      · exact ⟨v, h⟩

theorem has_run {W : World V} (I : Inv F W) {r : Res} {v : V} (h : W.Has r v) (s : List (Act V)) :
    ∃ w, (run F W s).Has r w := by
  induction s generalizing W v with
  | nil => exact ⟨v, h⟩
  | cons a s ih =>
    obtain ⟨w, hw⟩ := has_act I h a
    exact ih (I.act a) hw

/-- The lock of a resource that is on disk is free. -/
theorem has_unlocked {W : World V} (I : Inv F W) {r : Res} {v : V} (h : W.Has r v) :
    W.lock r = none := by
  cases hl : W.lock r with
  | none => rfl
  | some p =>
    unfold World.Has at h
    rcases I.lockIn r p hl with h' | h'
    · have := I.opening p r h'; rw [h] at this; cases this
    · have := I.filling p r h'; rw [h] at this; cases this

/-- A watcher that is past the existence check. -/
def LookPC.inside : LookPC → Prop
  | .mkdir | .load _ => True
  | _ => False

/-- A watcher inside its look has found the root directory. -/
def Scene.Found (S : Scene V) : Prop := ∀ o, (S.watcher o).pc.inside → S.world.root = true

theorem Scene.Found.of (W : World V) (f : Bool) : (Scene.of W f).Found := by
  intro o h
  exact h.elim

theorem found_world {S : Scene V} {o : Nat} (hS : S.Found) (h : (S.watcher o).pc.inside) :
    ({ S.world with root := true } : World V) = S.world := by
  have := hS o h
  cases hW : S.world with
  | mk root cell lock proc =>
    rw [hW] at this
    cases this
    rfl

/-- A step of a watcher changes nothing of the run. -/
theorem lookStep_world {S : Scene V} (hS : S.Found) (o : Nat) :
    (lookStep S o).world = S.world := by
  simp only [lookStep]
  split
  · rfl
  · rfl
  · rfl
  · rfl
  · next h => exact found_world (o := o) hS (by simp [h, LookPC.inside])
  · next r h =>
    have hw := found_world (o := o) hS (by simp [h, LookPC.inside])
    split
    · split
      · split <;> exact hw
      · exact hw
    · rfl

/-- A step of one watcher leaves the others alone. -/
theorem lookStep_other (S : Scene V) {o q : Nat} (h : q ≠ o) :
    (lookStep S o).watcher q = S.watcher q := by
  simp only [lookStep]
  split
  · rfl
  · rfl
  · rfl
  · exact set_ne _ _ h
  · exact set_ne _ _ h
  · split
    · split
      · split <;> exact set_ne _ _ h
      · exact set_ne _ _ h
    · rfl

theorem Scene.Found.lookStep {S : Scene V} (hS : S.Found) (o : Nat) : (lookStep S o).Found := by
  intro q hq
  rw [lookStep_world hS o]
  by_cases h : q = o
  · subst h
    by_cases hin : (S.watcher q).pc.inside
    · exact hS q hin
    · cases hr : S.world.root with
      | true => rfl
      | false =>
        exfalso
        revert hq
        simp only [Create.lookStep]
        split
        · next h => simp [h, LookPC.inside]
        · next h => simp [h, LookPC.inside]
        · next h => simp [h, LookPC.inside]
        · simp [hr, LookPC.inside]
        · next h => exact absurd (by simp [h, LookPC.inside]) hin
        · next h => exact absurd (by simp [h, LookPC.inside]) hin
  · rw [lookStep_other S h] at hq
    exact hS q hq

theorem Scene.Found.act {S : Scene V} (hS : S.Found) {a : SceneAct V} (ha : a ≠ .overwrite) :
    (sceneAct F S a).Found := by
  cases a with
  | work a => intro o h; exact root_act (hS o h) a
  | look o =>
    simp only [sceneAct]
    split
    all_goals first | exact hS | skip
    all_goals
      intro q hq
      by_cases h : q = o
      · subst h; simp [LookPC.inside] at hq
      · simp only [set_ne _ _ h] at hq; exact hS q hq
  | step o => exact hS.lookStep o
  | kill o =>
    intro q hq
    simp only [sceneAct] at hq
    by_cases h : q = o
    · subst h; simp [LookPC.inside] at hq
    · simp only [set_ne _ _ h] at hq; exact hS q hq
  | overwrite => exact absurd rfl ha

/-- The run goes on as if nobody looked. -/
theorem world_run {S : Scene V} (hS : S.Found) {s : List (SceneAct V)} (hn : NoOverwrite s) :
    (sceneRun F S s).world = run F S.world (workOf s) ∧ (sceneRun F S s).Found := by
  induction s generalizing S with
  | nil => exact ⟨rfl, hS⟩
  | cons a s ih =>
    have ha : a ≠ .overwrite := by rintro rfl; exact hn (by simp)
    have hn' : NoOverwrite s := fun h => hn (List.mem_cons_of_mem _ h)
    obtain ⟨h1, h2⟩ := ih (hS.act (F := F) ha) hn'
    refine ⟨?_, h2⟩
    rw [sceneRun, h1]
    cases a with
    | work a => rfl
    | look o =>
      simp only [sceneAct, workOf]
      split <;> rfl
    | step o =>
      simp only [sceneAct, workOf]
      rw [lookStep_world hS o]
    | kill o => rfl
    | overwrite => exact absurd rfl ha

/-- A watcher at `c` has read resource `r`. -/
def LookPC.read (c : LookPC) (r : Res) : Prop :=
  match c with
  | .done => True
  | .load r' => r.idx < r'.idx
  | _ => False

theorem read_after {r r' : Res} (h : (LookPC.after r).read r') :
    r' = r ∨ (LookPC.load r).read r' := by
  cases r <;> cases r' <;> simp_all [LookPC.after, Res.next, LookPC.read, Res.idx]

/-- Only its own steps, kills and looks change a watcher. -/
theorem watcher_other {S : Scene V} {a : SceneAct V} {o : Nat} (hk : a ≠ .kill o) (hl : a ≠ .look o)
    (hs : a ≠ .step o) : (sceneAct F S a).watcher o = S.watcher o := by
  cases a with
  | work a => rfl
  | look q =>
    have : o ≠ q := by rintro rfl; exact hl rfl
    simp only [sceneAct]
    split <;> first | rfl | exact set_ne _ _ this
  | step q =>
    have : o ≠ q := by rintro rfl; exact hs rfl
    exact lookStep_other S this
  | kill q =>
    have : o ≠ q := by rintro rfl; exact hk rfl
    exact set_ne _ _ this
  | overwrite => rfl

/-- What a watcher has read after a step was there before the step or is on disk. -/
theorem lookStep_read {S : Scene V} {o : Nat} {r : Res}
    (h : ((lookStep S o).watcher o).pc.read r) :
    ((S.watcher o).pc.read r ∧ ((lookStep S o).watcher o).got r = (S.watcher o).got r) ∨
    ∃ w, ((lookStep S o).watcher o).got r = some w ∧ S.world.Has r w := by
  revert h
  simp only [lookStep]
  split
  · next h => simp [h, LookPC.read]
  · next h => simp [h, LookPC.read]
  · next h => simp [h, LookPC.read]
  · split <;> simp [LookPC.read]
  · cases r <;> simp [LookPC.read, Res.idx]
  · next r' h =>
    split
    · split
      · next hv =>
        split
        · simp [LookPC.read]
        · simp [LookPC.read]
        · next v hd =>
          simp only [set_same]
          intro hr
          by_cases hrr : r = r'
          · subst hrr
            refine Or.inr ⟨v, by simp, ?_⟩
            unfold World.Has
            cases hc : S.world.cell r with
            | mk ver data =>
              rw [hc] at hv hd
              simp only at hv hd
              rw [hv, hd]
          · rcases read_after hr with h' | h'
            · exact absurd h' hrr
            · refine Or.inl ⟨by rw [h]; exact h', ?_⟩
              rw [set_ne _ _ hrr]
      · simp [LookPC.read]
    · intro hr; exact Or.inl ⟨hr, rfl⟩

/-- What a watcher has read was on disk at some moment of the schedule. -/
theorem read_run {S : Scene V} {o : Nat} (h0 : ∀ r, ¬ (S.watcher o).pc.read r)
    (t : List (SceneAct V)) (hu : Undisturbed o t) (r : Res)
    (hr : ((sceneRun F S t).watcher o).pc.read r) :
    ∃ w t₁ t₂, t = t₁ ++ t₂ ∧ ((sceneRun F S t).watcher o).got r = some w ∧
      (sceneRun F S t₁).world.Has r w := by
  induction t using List.reverseRecOn with
  | nil => exact absurd hr (h0 r)
  | append_singleton t a ih =>
    have hu' : Undisturbed o t :=
      ⟨fun h => hu.1 (List.mem_append_left _ h), fun h => hu.2 (List.mem_append_left _ h)⟩
    have hk : a ≠ .kill o := by rintro rfl; exact hu.1 (by simp)
    have hl : a ≠ .look o := by rintro rfl; exact hu.2 (by simp)
    have e : sceneRun F S (t ++ [a]) = sceneAct F (sceneRun F S t) a := by
      rw [sceneRun_append]; rfl
    rw [e] at hr ⊢
    by_cases hs : a = .step o
    · subst hs
      simp only [sceneAct] at hr ⊢
      rcases lookStep_read hr with ⟨h1, h2⟩ | ⟨w, h1, h2⟩
      · obtain ⟨w, t₁, t₂, rfl, hg, hh⟩ := ih hu' h1
        exact ⟨w, t₁, t₂ ++ [.step o], by simp, by rw [h2, hg], hh⟩
      · exact ⟨w, t, [.step o], rfl, h1, h2⟩
    · rw [watcher_other hk hl hs] at hr ⊢
      obtain ⟨w, t₁, t₂, rfl, hg, hh⟩ := ih hu' hr
      exact ⟨w, t₁, t₂ ++ [a], by simp, hg, hh⟩

theorem lookAt_eq {S : Scene V} {o : Nat} (hfree : S.LookFree o) :
    lookAt F S o = sceneRun F { S with watcher := set S.watcher o ⟨.start, fun _ => none⟩ }
      (List.replicate 6 (.step o)) := by
  show sceneRun F (sceneAct F S (.look o)) _ = _
  congr 1
  rcases hfree with h' | h' | ⟨e, h'⟩ <;> simp [sceneAct, h']

/-- Steps a look at a complete run still needs. -/
def LookPC.left : LookPC → Nat
  | .start => 6
  | .mkdir => 5
  | .load .info => 4
  | .load .seed => 3
  | .load .errors => 2
  | .load .state => 1
  | _ => 0

/-- A look that has been started and has not raised. -/
def LookPC.fine : LookPC → Prop
  | .start | .mkdir | .load _ | .done => True
  | _ => False

/-- A step of a look at a complete run. -/
theorem lookStep_left {S : Scene V} {o : Nat} (hroot : S.world.root = true)
    (hall : ∀ r, ∃ v, S.world.Has r v) (hq : ∀ r, S.world.lock r = none)
    (hf : (S.watcher o).pc.fine) :
    ((lookStep S o).watcher o).pc.fine ∧
    ((lookStep S o).watcher o).pc.left = (S.watcher o).pc.left - 1 := by
  simp only [lookStep]
  split
  · next h => rw [h] at hf; exact hf.elim
  · next h => rw [h]; exact ⟨trivial, rfl⟩
  · next h => rw [h] at hf; exact hf.elim
  · next h => simp [h, hroot, LookPC.fine, LookPC.left]
  · next h => simp [h, LookPC.fine, LookPC.left]
  · next r h =>
    obtain ⟨v, hv⟩ := hall r
    unfold World.Has at hv
    rw [hq r, hv, h]
    cases r <;> simp [LookPC.fine, LookPC.left, LookPC.after, Res.next]

/-- A look that starts at a complete run never raises and ends after six steps. -/
theorem look_run {S : Scene V} {o : Nat} (hS : S.Found) (I : Inv F S.world)
    (hroot : S.world.root = true) (hall : ∀ r, ∃ v, S.world.Has r v)
    (hf : (S.watcher o).pc.fine) (t : List (SceneAct V)) (hn : NoOverwrite t)
    (hu : Undisturbed o t) :
    ((sceneRun F S t).watcher o).pc.fine ∧
    ((sceneRun F S t).watcher o).pc.left = (S.watcher o).pc.left - looksOf o t := by
  induction t generalizing S with
  | nil => exact ⟨hf, by simp [sceneRun, looksOf]⟩
  | cons a t ih =>
    have ha : a ≠ .overwrite := by rintro rfl; exact hn (by simp)
    have hn' : NoOverwrite t := fun h => hn (List.mem_cons_of_mem _ h)
    have hu' : Undisturbed o t :=
      ⟨fun h => hu.1 (List.mem_cons_of_mem _ h), fun h => hu.2 (List.mem_cons_of_mem _ h)⟩
    have hk : a ≠ .kill o := by rintro rfl; exact hu.1 (by simp)
    have hl : a ≠ .look o := by rintro rfl; exact hu.2 (by simp)
    have hw : (sceneAct F S a).world = run F S.world (workOf [a]) :=
      (world_run (s := [a]) hS (by intro h; simp at h; exact ha h.symm)).1
    have I' : Inv F (sceneAct F S a).world := by rw [hw]; exact I.run _
    have hall' : ∀ r, ∃ v, (sceneAct F S a).world.Has r v := by
      intro r; obtain ⟨v, hv⟩ := hall r; rw [hw]; exact has_run I hv _
    have hroot' : (sceneAct F S a).world.root = true := by
      rw [hw]
      cases a with
      | work a => exact root_act hroot a
      | _ => exact hroot
    have hS' := hS.act (F := F) ha
    by_cases hs : a = .step o
    · subst hs
      obtain ⟨h1, h2⟩ := lookStep_left (o := o) hroot hall
        (fun r => by obtain ⟨v, hv⟩ := hall r; exact has_unlocked I hv) hf
      obtain ⟨h3, h4⟩ := ih hS' I' hroot' hall' h1 hn' hu'
      refine ⟨h3, ?_⟩
      rw [sceneRun, h4]
      simp only [sceneAct, looksOf, if_true]
      rw [h2]
      omega
    · have e := watcher_other (F := F) (S := S) hk hl hs
      obtain ⟨h3, h4⟩ := ih hS' I' hroot' hall' (by rw [e]; exact hf) hn' hu'
      refine ⟨h3, ?_⟩
      rw [sceneRun, h4, e]
      congr 1
      cases a with
      | step q =>
        have : q ≠ o := by rintro rfl; exact hs rfl
        simp [looksOf, this]
      | _ => rfl

end Neps.Create
