import Verif.Create.WatchProps

/-!
# C128: why a look raises
-/

namespace Neps.Create

variable {V : Type} {F : Format V}

/-- Files stay usable under the conditions of `C128_no_torn_file`. -/
theorem Usable.run' {W : World V} (U : Usable F W) (s : List (Act V)) (hk : SafeKills F W s)
    (hc : CallsWith (fun g => ∀ r, ∃ v, F.roundtrip r (g r) = some v) s) : Usable F (run F W s) := by
  induction s generalizing W with
  | nil => exact U
  | cons a s ih =>
    refine ih (U.act a hk.1 ?_) hk.2 (fun p g h => hc p g (List.mem_cons_of_mem _ h))
    rintro p g rfl
    exact hc p g (by simp)

/-- **C128.** Under the conditions of `C128_no_torn_file` a look that raises says what is missing at that moment:
either `FileNotFoundError`, and there is no root directory, or the other exception, and a resource is not there
yet. -/
theorem C128_raises_when_missing (g₀ : Res → V) (f : Bool) (s : List (SceneAct V)) (o : Nat) (e : LookErr)
    (hn : NoOverwrite s) (hk : SafeScene F (init g₀) s)
    (hc : CallsWith (fun g => ∀ r, ∃ v, F.roundtrip r (g r) = some v) (workOf s))
    (h0 : ¬ (sceneRun F (Scene.of (init g₀) f) s).LookRaised o e)
    (h1 : (sceneRun F (Scene.of (init g₀) f) (s ++ [.step o])).LookRaised o e) :
    (e = .fileNotFound ∧ (sceneRun F (Scene.of (init g₀) f) s).world.root = false) ∨
    (e = .doesNotExist ∧ ∃ r, (sceneRun F (Scene.of (init g₀) f) s).world.Lacks r) := by
  have U : Usable F (sceneRun F (Scene.of (init g₀) f) s).world := by
    rw [C128_looks_do_not_disturb _ _ _ hn]
    exact Usable.run' ⟨Inv.init g₀, fun r _ => Or.inl rfl, by simp [init]⟩ _ hk hc
  rw [sceneRun_append] at h1
  generalize sceneRun F (Scene.of (init g₀) f) s = S at *
  simp only [sceneRun, sceneAct, Scene.LookRaised, lookStep] at h0 h1
  split at h1
  · exact absurd h1 h0
  · exact absurd h1 h0
  · exact absurd h1 h0
  · by_cases hr : S.world.root = true
    · simp [hr] at h1
    · simp [hr] at h1
      exact Or.inl ⟨h1.symm, by simpa using hr⟩
  · simp at h1
  · next r hr =>
    split at h1
    · next hl =>
      rcases U.clean r (by simpa using hl) with hc | ⟨v, hv⟩
      · have hc' := hc
        unfold World.Lacks at hc
        simp [hc, Cell.empty] at h1
        exact Or.inr ⟨h1.symm, r, hc'⟩
      · unfold World.Has at hv
        rw [hv] at h1
        cases r <;> simp [LookPC.after, Res.next] at h1
    · exact absurd h1 h0

/-- Both cases happen: a look before process 0 has made the directory, and one before it has stored the first
resource. -/
example :
    let s : List (SceneAct Nat) := [.work (.call 0 (args 7 1)), .look 3]
    let t : List (SceneAct Nat) := [.work (.call 0 (args 7 1)), .work (.step 0), .work (.step 0), .look 3, .step 3,
      .step 3]
    (sceneRun plainFiles (Scene.of (init (args 0 0)) false) (s ++ [.step 3])).LookRaised 3 .fileNotFound ∧
    (sceneRun plainFiles (Scene.of (init (args 0 0)) false) (t ++ [.step 3])).LookRaised 3 .doesNotExist ∧
    NoOverwrite s ∧ NoOverwrite t := by
  refine ⟨?_, ?_, ?_, ?_⟩
  · unfold Scene.LookRaised; decide +kernel
  · unfold Scene.LookRaised; decide +kernel
  · simp [NoOverwrite]
  · simp [NoOverwrite]

end Neps.Create
