import Verif.Create.WatchLemmas
import Verif.Create.Props

/-!
# C128: looking at a run

`Scene`s are the run directory, the processes that create, join and work on the run, and any number
of watchers that look at it (`neps.status`, `neps.get_summary_dict`, `neps status`, `neps errors`,
`neps info-config`, `neps results`).
-/

namespace Neps.Create

variable {V : Type} {F : Format V}

/-! ### The run does not notice that somebody looks -/

/-- **C128.** In every schedule in which the root directory is not deleted, the files of the run and
the processes that work on it are exactly what they are in the same schedule without the looks. -/
theorem C128_looks_do_not_disturb (W : World V) (f : Bool) (s : List (SceneAct V))
    (hn : NoOverwrite s) : (sceneRun F (Scene.of W f) s).world = run F W (workOf s) :=
  (world_run (Scene.Found.of W f) hn).1

/-- An instance: process 0 creates a run while watcher 3 looks at it twice, the first time too
early. -/
example :
    let s : List (SceneAct Nat) := [.work (.call 0 (args 7 1)), .work (.step 0), .work (.step 0),
      .look 3, .step 3, .step 3, .step 3] ++ (ops 0 13).map .work ++
      (.look 3 :: List.replicate 6 (.step 3))
    NoOverwrite s ∧ workOf s = .call 0 (args 7 1) :: ops 0 15 ∧
    (sceneRun plainFiles (Scene.of (init (args 0 0)) false) (s.take 7)).LookRaised 3 .doesNotExist ∧
    (sceneRun plainFiles (Scene.of (init (args 0 0)) false) s).Saw 3 ∧
    ((sceneRun plainFiles (Scene.of (init (args 0 0)) false) s).watcher 3).got .info = some 7 := by
  refine ⟨?_, rfl, ?_, ?_, ?_⟩
  · simp [NoOverwrite, ops]
  · unfold Scene.LookRaised; decide +kernel
  · unfold Scene.Saw; decide +kernel
  · decide +kernel

/-! ### What a look shows -/

/-- **C128.** A look that returns shows, for every resource, a value that was on disk at some moment
between its start and its end, and the optimizer info it shows is the one of the run, now and at any
later time. -/
theorem C128_shows_what_was_stored (g₀ : Res → V) (f : Bool) (s t : List (SceneAct V)) (o : Nat)
    (hn : NoOverwrite (s ++ .look o :: t)) (hfree : (sceneRun F (Scene.of (init g₀) f) s).LookFree o)
    (hu : Undisturbed o t)
    (h : (sceneRun F (Scene.of (init g₀) f) (s ++ .look o :: t)).Saw o) :
    (∀ r, ∃ w t₁ t₂, t = t₁ ++ t₂ ∧
      ((sceneRun F (Scene.of (init g₀) f) (s ++ .look o :: t)).watcher o).got r = some w ∧
      (sceneRun F (Scene.of (init g₀) f) (s ++ .look o :: t₁)).world.Has r w) ∧
    ∃ v, ((sceneRun F (Scene.of (init g₀) f) (s ++ .look o :: t)).watcher o).got .info = some v ∧
      ∀ u, NoOverwrite u →
        (sceneRun F (Scene.of (init g₀) f) (s ++ .look o :: t ++ u)).world.Has .info v := by
  have e : ∀ t, sceneRun F (Scene.of (init g₀) f) (s ++ .look o :: t) =
      sceneRun F (sceneAct F (sceneRun F (Scene.of (init g₀) f) s) (.look o)) t := by
    intro t; rw [sceneRun_append]; rfl
  have h0 : ∀ r, ¬ ((sceneAct F (sceneRun F (Scene.of (init g₀) f) s) (.look o)).watcher o).pc.read r := by
    intro r
    rcases hfree with h' | h' | ⟨e, h'⟩ <;> simp [sceneAct, h', LookPC.read]
  have key : ∀ r, ∃ w t₁ t₂, t = t₁ ++ t₂ ∧
      ((sceneRun F (Scene.of (init g₀) f) (s ++ .look o :: t)).watcher o).got r = some w ∧
      (sceneRun F (Scene.of (init g₀) f) (s ++ .look o :: t₁)).world.Has r w := by
    intro r
    obtain ⟨w, t₁, t₂, ht, hg, hh⟩ := read_run (F := F) h0 t hu r
      (by rw [← e, show _ = LookPC.done from h]; trivial)
    exact ⟨w, t₁, t₂, ht, by rw [e]; exact hg, by rw [e]; exact hh⟩
  refine ⟨key, ?_⟩
  obtain ⟨v, t₁, t₂, rfl, hg, hh⟩ := key .info
  refine ⟨v, hg, fun u hun => ?_⟩
  have hn1 : NoOverwrite (s ++ .look o :: t₁) := by
    intro hm
    apply hn
    rw [show s ++ SceneAct.look o :: (t₁ ++ t₂) = (s ++ .look o :: t₁) ++ t₂ by simp]
    exact List.mem_append_left _ hm
  have hn2 : NoOverwrite ((s ++ .look o :: t₁) ++ (t₂ ++ u)) := by
    intro hm
    rw [← List.append_assoc] at hm
    rcases List.mem_append.1 hm with hm | hm
    · apply hn
      rw [show s ++ SceneAct.look o :: (t₁ ++ t₂) = (s ++ .look o :: t₁) ++ t₂ by simp]
      exact hm
    · exact hun hm
  rw [show s ++ SceneAct.look o :: (t₁ ++ t₂) ++ u = (s ++ .look o :: t₁) ++ (t₂ ++ u) by simp]
  rw [C128_looks_do_not_disturb _ _ _ hn2, workOf_append, run_append]
  rw [C128_looks_do_not_disturb _ _ _ hn1] at hh
  exact info_run ((Inv.init g₀).run _) hh _

/-- **C128.** As soon as some worker has started, looking always works: a look that starts then does
not raise, whatever the workers do and whoever is killed meanwhile, never has to wait for a worker
that was killed, and returns after its sixth step. -/
theorem C128_look_at_started_run (g₀ : Res → V) (f : Bool) (s t : List (SceneAct V)) (o p : Nat)
    (hn : NoOverwrite (s ++ .look o :: t)) (hfree : (sceneRun F (Scene.of (init g₀) f) s).LookFree o)
    (hp : (sceneRun F (Scene.of (init g₀) f) s).world.Returned p) (hu : Undisturbed o t) :
    (∀ e, ¬ (sceneRun F (Scene.of (init g₀) f) (s ++ .look o :: t)).LookRaised o e) ∧
    (6 ≤ looksOf o t → (sceneRun F (Scene.of (init g₀) f) (s ++ .look o :: t)).Saw o) := by
  have hns : NoOverwrite s := fun h => hn (List.mem_append_left _ h)
  have hnt : NoOverwrite t := fun h =>
    hn (List.mem_append_right _ (List.mem_cons_of_mem _ h))
  obtain ⟨hw, hS⟩ := world_run (F := F) (Scene.Found.of (init g₀) f) hns
  have hw : (sceneRun F (Scene.of (init g₀) f) s).world = run F (init g₀) (workOf s) := hw
  have I : Inv F (sceneRun F (Scene.of (init g₀) f) s).world := by
    rw [hw]; exact (Inv.init g₀).run _
  rw [show sceneRun F (Scene.of (init g₀) f) (s ++ .look o :: t) =
    sceneRun F (sceneAct F (sceneRun F (Scene.of (init g₀) f) s) (.look o)) t by
      rw [sceneRun_append]; rfl]
  generalize sceneRun F (Scene.of (init g₀) f) s = S at *
  have hroot : S.world.root = true := I.entered p (by rw [show _ = PC.done from hp]; rfl)
  have hall : ∀ r, ∃ v, S.world.Has r v := by
    intro r
    obtain ⟨-, w, -, h, -⟩ := I.passed p r (by rw [show _ = PC.done from hp]; trivial)
    exact ⟨w, h⟩
  have hS' := hS.act (F := F) (a := .look o) (by simp)
  have ew : (sceneAct F S (.look o)).world = S.world := by
    simp only [sceneAct]; split <;> rfl
  have ep : ((sceneAct F S (.look o)).watcher o).pc = .start := by
    rcases hfree with h' | h' | ⟨e, h'⟩ <;> simp [sceneAct, h']
  obtain ⟨h1, h2⟩ := look_run hS' (by rw [ew]; exact I) (by rw [ew]; exact hroot)
    (by rw [ew]; exact hall) (by rw [ep]; trivial) t hnt hu
  rw [ep] at h2
  constructor
  · intro e he
    rw [show _ = LookPC.failed e from he] at h1
    exact h1
  · intro h6
    rw [show LookPC.start.left = 6 from rfl] at h2
    have h0 : ((sceneRun F (sceneAct F S (.look o)) t).watcher o).pc.left = 0 := by omega
    unfold Scene.Saw
    revert h0 h1
    cases ((sceneRun F (sceneAct F S (.look o)) t).watcher o).pc with
    | load r => cases r <;> simp [LookPC.left]
    | idle => simp [LookPC.fine]
    | failed e => simp [LookPC.fine]
    | start => simp [LookPC.left]
    | mkdir => simp [LookPC.left]
    | done => simp

/-- The hypotheses hold for a run that process 0 created; between the steps of the look the seed is
replaced and process 1, which is joining, is killed. The look shows the new seed. -/
example :
    let s : List (SceneAct Nat) := (.call 0 (args 7 1) :: ops 0 15).map .work
    let t : List (SceneAct Nat) := [.step 3, .step 3, .work (.call 1 (args 7 2)), .work (.step 1),
      .step 3, .work (.put .seed 5), .work (.kill 1), .step 3, .step 3, .work (.put .seed 6), .step 3]
    let S := sceneRun plainFiles (Scene.of (init (args 0 0)) false) (s ++ .look 3 :: t)
    (sceneRun plainFiles (Scene.of (init (args 0 0)) false) s).world.Returned 0 ∧
    NoOverwrite (s ++ .look 3 :: t) ∧ Undisturbed 3 t ∧ looksOf 3 t = 6 ∧ S.Saw 3 ∧
    (S.watcher 3).got .seed = some 5 ∧ S.world.Has .seed 6 := by
  refine ⟨?_, ?_, ?_, rfl, ?_, ?_, ?_⟩
  · unfold World.Returned; decide +kernel
  · simp [NoOverwrite, ops]
  · simp [Undisturbed]
  · unfold Scene.Saw; decide +kernel
  · decide +kernel
  · unfold World.Has; decide +kernel

/-- **C128.** If all values can be written and nobody is killed in the middle of writing a resource
for the first time, a look never fails because of a half-written file, however it interleaves with
the creation of the run: the only exceptions are that the root directory does not exist
(`FileNotFoundError`) or that a resource does not exist yet. -/
theorem C128_no_torn_file (g₀ : Res → V) (f : Bool) (s : List (SceneAct V)) (o : Nat)
    (hn : NoOverwrite s) (hk : SafeScene F (init g₀) s)
    (hc : CallsWith (fun g => ∀ r, ∃ v, F.roundtrip r (g r) = some v) (workOf s)) :
    ¬ (sceneRun F (Scene.of (init g₀) f) s).LookRaised o .unreadable := by
  suffices H : ∀ (s : List (SceneAct V)) (S : Scene V), S.Found → Usable F S.world → NoOverwrite s →
      SafeKills F S.world (workOf s) →
      CallsWith (fun g => ∀ r, ∃ v, F.roundtrip r (g r) = some v) (workOf s) →
      (∀ o, (S.watcher o).pc ≠ .failed .unreadable) →
      ∀ o, ((sceneRun F S s).watcher o).pc ≠ .failed .unreadable by
    exact H s (Scene.of (init g₀) f) (Scene.Found.of _ _)
      ⟨Inv.init g₀, fun r _ => Or.inl rfl, by simp [Scene.of, init]⟩ hn hk hc
      (by simp [Scene.of]) o
  intro s
  induction s with
  | nil => intro S _ _ _ _ _ h; exact h
  | cons a s ih =>
    intro S hS U hn hk hc h
    have ha : a ≠ .overwrite := by rintro rfl; exact hn (by simp)
    have hn' : NoOverwrite s := fun h => hn (List.mem_cons_of_mem _ h)
    have hS' := hS.act (F := F) ha
    cases a with
    | overwrite => exact absurd rfl ha
    | work a =>
      refine ih (sceneAct F S (.work a)) hS' (U.act a hk.1 ?_) hn' hk.2
        (fun p g h => hc p g (List.mem_cons_of_mem _ h)) h
      rintro p g rfl
      exact hc p g (by simp [workOf])
    | look q =>
      have ew : (sceneAct F S (.look q)).world = S.world := by
        simp only [sceneAct]; split <;> rfl
      refine ih (sceneAct F S (.look q)) hS' (by rw [ew]; exact U) hn' (by rw [ew]; exact hk) hc ?_
      intro x
      simp only [sceneAct]
      split
      all_goals first | exact h x | skip
      all_goals
        by_cases hx : x = q
        · subst hx; simp
        · simp only [set_ne _ _ hx]; exact h x
    | kill q =>
      refine ih (sceneAct F S (.kill q)) hS' U hn' hk hc ?_
      intro x
      by_cases hx : x = q
      · subst hx; simp [sceneAct]
      · simp only [sceneAct, set_ne _ _ hx]; exact h x
    | step q =>
      have ew : (sceneAct F S (.step q)).world = S.world := lookStep_world hS q
      refine ih (sceneAct F S (.step q)) hS' (by rw [ew]; exact U) hn' (by rw [ew]; exact hk) hc ?_
      intro x
      by_cases hx : x = q
      · subst hx
        simp only [sceneAct, lookStep]
        split
        · exact h x
        · exact h x
        · exact h x
        · split <;> simp
        · simp
        · next r hr =>
          split
          · next hl =>
            rcases U.clean r (by simpa using hl) with hc | ⟨v, hv⟩
            · unfold World.Lacks at hc
              simp [hc, Cell.empty]
            · unfold World.Has at hv
              rw [hv]
              cases r <;> simp [LookPC.after, Res.next]
          · rw [hr]; simp
      · rw [show (sceneAct F S (.step q)).watcher x = S.watcher x from lookStep_other S hx]
        exact h x

/-! ### A look that nobody disturbs -/

/-- **C128.** A look at a directory that does not exist raises `FileNotFoundError` and creates
nothing. A look at an existing directory raises if any of the four resources is not there; if all
are, it returns their values. In no case does it change a resource. -/
theorem C128_undisturbed_look (S : Scene V) (o : Nat) (hfree : S.LookFree o)
    (hq : S.world.Quiet) (hc : ∀ r, S.world.Lacks r ∨ ∃ v, S.world.Has r v) :
    (S.world.root = false → (lookAt F S o).LookRaised o .fileNotFound ∧
      (lookAt F S o).world = S.world ∧ (lookAt F S o).folders = S.folders) ∧
    (S.world.root = true → (lookAt F S o).world = S.world ∧
      (∀ v : Res → V, (∀ r, S.world.Has r (v r)) → (lookAt F S o).Saw o ∧
        ∀ r, ((lookAt F S o).watcher o).got r = some (v r)) ∧
      ((∃ r, S.world.Lacks r) → (lookAt F S o).LookRaised o .doesNotExist)) := by
  rw [lookAt_eq hfree]
  obtain ⟨⟨root, cell, lock, proc⟩, folders, watcher⟩ := S
  replace hq : ∀ r, lock r = none := hq
  simp only [World.Lacks, World.Has] at hc ⊢
  constructor
  · intro hroot
    subst hroot
    refine ⟨?_, ?_, ?_⟩ <;>
      simp [Scene.LookRaised, sceneRun, sceneAct, lookStep, List.replicate]
  · intro hroot
    subst hroot
    rcases hc .info with hi | ⟨vi, hi⟩
    · refine ⟨?_, ?_, ?_⟩
      · simp [sceneRun, sceneAct, lookStep, List.replicate, hq, hi, Cell.empty]
      · intro v hv; have := hv .info; rw [hi] at this; cases this
      · intro _
        simp [Scene.LookRaised, sceneRun, sceneAct, lookStep, List.replicate, hq, hi, Cell.empty]
    · rcases hc .seed with hs | ⟨vs, hs⟩
      · refine ⟨?_, ?_, ?_⟩
        · simp [sceneRun, sceneAct, lookStep, List.replicate, hq, hi, hs, Cell.empty, LookPC.after,
            Res.next]
        · intro v hv; have := hv .seed; rw [hs] at this; cases this
        · intro _
          simp [Scene.LookRaised, sceneRun, sceneAct, lookStep, List.replicate, hq, hi, hs,
            Cell.empty, LookPC.after, Res.next]
      · rcases hc .errors with he | ⟨ve, he⟩
        · refine ⟨?_, ?_, ?_⟩
          · simp [sceneRun, sceneAct, lookStep, List.replicate, hq, hi, hs, he, Cell.empty,
              LookPC.after, Res.next]
          · intro v hv; have := hv .errors; rw [he] at this; cases this
          · intro _
            simp [Scene.LookRaised, sceneRun, sceneAct, lookStep, List.replicate, hq, hi, hs, he,
              Cell.empty, LookPC.after, Res.next]
        · rcases hc .state with ht | ⟨vt, ht⟩
          · refine ⟨?_, ?_, ?_⟩
            · simp [sceneRun, sceneAct, lookStep, List.replicate, hq, hi, hs, he, ht, Cell.empty,
                LookPC.after, Res.next]
            · intro v hv; have := hv .state; rw [ht] at this; cases this
            · intro _
              simp [Scene.LookRaised, sceneRun, sceneAct, lookStep, List.replicate, hq, hi, hs, he,
                ht, Cell.empty, LookPC.after, Res.next]
          · refine ⟨?_, ?_, ?_⟩
            · simp [sceneRun, sceneAct, lookStep, List.replicate, hq, hi, hs, he, ht, LookPC.after,
                Res.next]
            · intro v hv
              have h1 := hv .info; have h2 := hv .seed; have h3 := hv .errors; have h4 := hv .state
              rw [hi] at h1; rw [hs] at h2; rw [he] at h3; rw [ht] at h4
              simp only [Cell.mk.injEq, File.whole.injEq, true_and] at h1 h2 h3 h4
              subst h1 h2 h3 h4
              constructor
              · simp [Scene.Saw, sceneRun, sceneAct, lookStep, List.replicate, hq, hi, hs, he, ht,
                  LookPC.after, Res.next]
              · intro r
                cases r <;> simp [sceneRun, sceneAct, lookStep, List.replicate, hq, hi, hs, he, ht,
                  LookPC.after, Res.next, set]
            · rintro ⟨r, hr⟩
              cases r
              · rw [hi] at hr; cases hr
              · rw [hs] at hr; cases hr
              · rw [he] at hr; cases hr
              · rw [ht] at hr; cases hr

/-- The hypotheses hold for a run whose creator was killed after it stored the seed; looking at it
raises because the errors are not there. -/
example :
    let W := run plainFiles (init (args 0 0)) (.call 0 (args 7 1) :: ops 0 8 ++ [.kill 0])
    W.Quiet ∧ (∀ r, W.Lacks r ∨ ∃ v, W.Has r v) ∧ W.root = true ∧ W.Lacks .errors ∧
      W.Has .info 7 := by
  unfold World.Has World.Lacks World.Quiet
  refine ⟨fun r => by cases r <;> decide +kernel, fun r => ?_, by decide +kernel, by decide +kernel,
    by decide +kernel⟩
  cases r
  · exact Or.inr ⟨7, by decide +kernel⟩
  · exact Or.inr ⟨1, by decide +kernel⟩
  · exact Or.inl (by decide +kernel)
  · exact Or.inl (by decide +kernel)

/-- **C128 fails** for directories that are not run directories: looking at any existing directory
without subdirectories of a run raises (and not the documented `FileNotFoundError`), and leaves the
five subdirectories of a run in it. -/
theorem C128_wrong_directory_fails (S : Scene V) (o : Nat) (hfree : S.LookFree o)
    (hq : S.world.Quiet) (hc : ∀ r, S.world.Lacks r) (hroot : S.world.root = true) :
    (lookAt F S o).LookRaised o .doesNotExist ∧ ¬ (lookAt F S o).LookRaised o .fileNotFound ∧
    (lookAt F S o).folders = true := by
  have h := ((C128_undisturbed_look (F := F) S o hfree hq (fun r => Or.inl (hc r))).2 hroot).2.2
    ⟨.info, hc .info⟩
  refine ⟨h, ?_, ?_⟩
  · unfold Scene.LookRaised at h ⊢
    rw [h]; simp
  · have hi := hc .info
    unfold World.Lacks at hi
    rw [lookAt_eq hfree]
    simp [sceneRun, sceneAct, lookStep, List.replicate, hq .info, hi, hroot, Cell.empty]

/-- The hypotheses hold for an empty directory, in which there are no subdirectories before. -/
example :
    let S : Scene Nat := Scene.of { init (args 0 0) with root := true } false
    S.LookFree 3 ∧ S.world.Quiet ∧ (∀ r, S.world.Lacks r) ∧ S.world.root = true ∧
      S.folders = false :=
  ⟨Or.inl rfl, fun _ => rfl, fun _ => rfl, rfl, rfl⟩

/-- **C128.** The subdirectories of a run, once there, stay, whatever the processes and watchers do; only
overwriting the run removes them. -/
theorem C128_folders_stay (S : Scene V) (s : List (SceneAct V)) (hs : .overwrite ∉ s)
    (h : S.folders = true) : (sceneRun F S s).folders = true := by
  induction s generalizing S with
  | nil => exact h
  | cons a s ih =>
    simp only [List.mem_cons, not_or] at hs
    refine ih _ hs.2 ?_
    cases a with
    | work a => simp [sceneAct, h]
    | look o => simp only [sceneAct]; split <;> exact h
    | step o =>
      simp only [sceneAct, lookStep]
      repeat' split
      all_goals first | exact h | rfl
    | kill o => exact h
    | overwrite => simp at hs

/-- **C128 fails** when a run is started again with `overwrite_working_directory=True` while somebody
looks at it: the look has found the root directory, the run deletes it, the look makes it again, and
the run raises `FileNotFoundError`. From then on nobody gets into the run without overwriting it
again. Without the look the run starts. -/
theorem C128_overwrite_fails :
    let s : List (SceneAct Nat) := (.call 0 (args 7 1) :: ops 0 15).map .work
    let look : List (SceneAct Nat) := [.look 3, .step 3]
    let restart : List (SceneAct Nat) := (.call 1 (args 7 2) :: ops 1 15).map .work
    (sceneRun plainFiles (Scene.of (init (args 0 0)) false)
      (s ++ look ++ .overwrite :: .step 3 :: restart)).world.Raised 1 .fileNotFound ∧
    (sceneRun plainFiles (Scene.of (init (args 0 0)) false)
      (s ++ .overwrite :: restart)).world.Returned 1 := by
  unfold World.Raised World.Returned
  decide +kernel

end Neps.Create
