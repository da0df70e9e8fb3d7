import Verif.Seed.Lemmas
import Mathlib.Tactic.Set

/-!
# C45: resuming continues the same random sequence
-/

namespace Neps.Seed

open Neps.Run
open Neps.Store (Disk Handle)

variable {G O E : Type}

/-! ## What was proposed is what is stored -/

/-- Every proposal of the log is a stored trial. -/
def StoredInv (W : SWorld G O E) : Prop :=
  ∀ s ∈ proposals W, ∃ t, (W.base.disk s.id).data = some t ∧ (W.base.disk s.id).ver.isSome ∧
    t.config = s.config ∧ t.metadata.previousTrialId = s.previousId

theorem StoredInv.of_run {W W' : SWorld G O E} {fs st} (C : Coh fs W.base) (I : StoredInv W)
    {bs : List Act} (hb : W'.base = run fs st W.base bs) (ha : W'.asked = W.asked) :
    StoredInv W' := by
  intro s hs
  rw [proposals, ha] at hs
  obtain ⟨t, h1, h2, h3, h4⟩ := I s hs
  obtain ⟨t', k1, k2, k3, k4⟩ := run_keeps (st := st) C bs h1
  rw [hb]
  simp only [Trial.sampledPart, SampledPart.mk.injEq] at k3
  exact ⟨t', k1, k2 h2, k3.1.trans h3, k3.2.2.2.1.trans h4⟩

theorem sample_asked {A : Optimizer G O E} {fs st} {W : SWorld G O E} {w c e d} (C : Coh fs W.base)
    (I : StoredInv W) (hs : samples W.base w = true) :
    StoredInv (sample A fs st W w c e d) ∧
      (W.base.ids = (proposals W).map (·.id) → (sample A fs st W w c e d).base.ids =
        (proposals (sample A fs st W w c e d)).map (·.id)) := by
  unfold Seed.sample
  split
  · refine ⟨StoredInv.of_run C I (bs := [.step w { c with ask := none }]) (st := st) rfl rfl, ?_⟩
    intro h
    exact (act_none_ids hs).trans h
  · next h s o r hp =>
    simp only
    split
    · next hids =>
      refine ⟨StoredInv.of_run C I (bs := [.step w { c with ask := some s }]) (st := st) rfl rfl, ?_⟩
      intro h
      exact hids.trans h
    · next hids =>
      obtain ⟨h1, h2, loc, v, n, h3⟩ := act_sample hs hids
      have hb : ∀ id, ((if d = true then
          (act fs st W.base (.step w { c with ask := some s })).killW w
          else act fs st W.base (.step w { c with ask := some s })).disk id) =
          (act fs st W.base (.step w { c with ask := some s })).disk id := by
        intro id
        split <;> rfl
      have hi : (if d = true then
          (act fs st W.base (.step w { c with ask := some s })).killW w
          else act fs st W.base (.step w { c with ask := some s })).ids = W.base.ids ++ [s.id] := by
        rw [← h2]
        split <;> rfl
      refine ⟨?_, ?_⟩
      · intro s' hs'
        simp only [proposals, List.map_append, List.map_cons, List.map_nil, List.mem_append,
          List.mem_singleton] at hs'
        simp only [hb]
        rcases hs' with hs' | rfl
        · obtain ⟨t, i1, i2, i3, i4⟩ := I s' hs'
          obtain ⟨t', k1, k2, k3, k4⟩ := run_keeps (st := st) C [.step w { c with ask := some s }] i1
          simp only [Trial.sampledPart, SampledPart.mk.injEq] at k3
          exact ⟨t', k1, k2 i2, k3.1.trans i3, k3.2.2.2.1.trans i4⟩
        · rw [h3]
          exact ⟨_, rfl, rfl, rfl, rfl⟩
      · intro h
        simp only [proposals, List.map_append, List.map_cons, List.map_nil]
        rw [hi, h]
        rfl

theorem srun_stored {A : Optimizer G O E} {fs st} {W : SWorld G O E} (C : Coh fs W.base)
    (I : StoredInv W) (as : List (SAct G E)) :
    StoredInv (srun A fs st W as) ∧
      ((∀ a ∈ as, a.whole = true) → W.base.ids = (proposals W).map (·.id) →
        (srun A fs st W as).base.ids = (proposals (srun A fs st W as)).map (·.id)) := by
  induction as generalizing W with
  | nil => exact ⟨I, fun _ h => h⟩
  | cons a as ih =>
    have hc : Coh fs (sact A fs st W a).base := by
      obtain ⟨bs, hb⟩ := sact_base A fs st W a
      rw [hb]
      exact run_induction fs st (P := Coh fs) (fun W w W' I t => I.trans t) C bs
    have key : StoredInv (sact A fs st W a) ∧ (a.whole = true →
        W.base.ids = (proposals W).map (·.id) →
        (sact A fs st W a).base.ids = (proposals (sact A fs st W a)).map (·.id)) := by
      cases a with
      | killSampling w c e =>
        refine ⟨?_, fun h => by simp [SAct.whole] at h⟩
        simp only [sact]
        split
        · next hs => exact (sample_asked C I hs).1
        · exact StoredInv.of_run C I (bs := [.kill w]) (st := st) rfl rfl
      | act a e noise =>
        cases a with
        | step w c =>
          simp only [sact]
          split
          · next hs =>
            obtain ⟨h1, h2⟩ := sample_asked (A := A) (st := st) (c := c) (e := e) (d := false) C I hs
            exact ⟨h1, fun _ => h2⟩
          · next hs =>
            refine ⟨StoredInv.of_run C I (bs := [.step w c]) (st := st) rfl rfl, fun _ h => ?_⟩
            exact (act_other_ids (by simpa using hs)).trans h
        | kill w =>
          exact ⟨StoredInv.of_run C I (bs := [.kill w]) (st := st) rfl rfl, fun _ h => h⟩
        | killCreating w c torn =>
          refine ⟨StoredInv.of_run C I (bs := [.killCreating w
            { c with ask := (propose A W w c e).map (·.2.1) } torn]) (st := st) rfl rfl, ?_⟩
          intro h
          simp [SAct.whole] at h
    obtain ⟨h1, h2⟩ := ih hc key.1
    exact ⟨h1, fun hw hi => h2 (fun b hb => hw b (by simp [hb])) (key.2 (hw a (by simp)) hi)⟩

/-- **C45**: in every execution what the optimizer proposed is stored, with its configuration and
predecessor; without kills inside the creation of a trial the trials are exactly the proposals. -/
theorem C45_proposals_stored (A : Optimizer G O E) (fs : String → Option PyFloat)
    (st : Nat → Settings) (r₀ : Rng G) (rng : Nat → Rng G) (as : List (SAct G E)) :
    let W := srun A fs st (start A r₀ rng) as
    (∀ s ∈ proposals W, ∃ t, W.base.stored s.id = some t ∧ t.config = s.config ∧
      t.metadata.previousTrialId = s.previousId) ∧
    ((∀ a ∈ as, a.whole = true) → W.base.ids = (proposals W).map (·.id)) := by
  intro W
  obtain ⟨h1, h2⟩ := srun_stored (A := A) (fs := fs) (st := st) (W := start A r₀ rng) (Coh.init fs)
    (fun s hs => by simp [proposals, start] at hs) as
  refine ⟨?_, fun h => h2 h rfl⟩
  intro s hs
  obtain ⟨t, i1, i2, i3, i4⟩ := h1 s hs
  obtain ⟨v, hv⟩ := Option.isSome_iff_exists.mp i2
  exact ⟨t, stored_eq_some.mpr ⟨⟨v, hv⟩, i1⟩, i3, i4⟩

/-! ## The replay theorem -/

/-- **C45 (partial)**: for every optimizer whose answer depends on the trials, the budget and the
generators only, in every execution of any number of workers on hosts of one kind, whatever the
evaluations do with the generators, the proposals are those of a single undisturbed process that
starts with the generators of the first process and sees the same trials. Missing: optimizers that
keep something in the process or use entropy (`C45_initial_design_fails`, `C45_unseeded_grid_fails`,
`C45_interleave_fails`), and kills inside a sampling (`C45_killed_sampling_fails`). -/
theorem C45_resume_partial (A : Optimizer G O E) (V : List View → Prop) (hA : Independent A V)
    (hK : KeepsHost A) (fs : String → Option PyFloat) (st : Nat → Settings) (r₀ : Rng G)
    (rng : Nat → Rng G) (hh : SameHosts r₀ rng) (as : List (SAct G E))
    (has : ∀ a ∈ as, a.clean = true)
    (hV : ∀ h ∈ histories (srun A fs st (start A r₀ rng) as), V h.2.1) :
    proposals (srun A fs st (start A r₀ rng) as) =
      replay A A.init r₀ (histories (srun A fs st (start A r₀ rng) as)) := by
  obtain ⟨o, r, -, h, -⟩ := ((SeedInv.start A V hh).run hA hK fs st as has).state hV
  exact h.symm

/-- **C45 (partial)**: so the proposals do not depend on the schedule; compare
`C45_resume_partial`. -/
theorem C45_reproducible_partial (A : Optimizer G O E) (hA : Independent A (fun _ => True))
    (hK : KeepsHost A) : Reproducible A SAct.clean := by
  intro r₀ rng rng' fs st st' as as' hh hh' has has' hs
  rw [C45_resume_partial A _ hA hK fs st r₀ rng hh as has (fun _ _ => trivial),
    C45_resume_partial A _ hA hK fs st' r₀ rng' hh' as' has' (fun _ _ => trivial)]
  exact replay_congr hA hs (fun _ _ => trivial) _ _ _

/-! ## Random search -/

theorem randomSearch_independent (draw : Rng G → List (String × PyVal) × Rng G) :
    Independent (randomSearch draw) (fun _ => True) := by
  intro o o' e e' ts ts' b r _ hp
  simp [randomSearch, hp.length_eq]

theorem randomSearch_keepsHost {draw : Rng G → List (String × PyVal) × Rng G}
    (hd : ∀ r, (draw r).2.cuda.isSome = r.cuda.isSome) : KeepsHost (randomSearch draw) := by
  intro o e ts b r s o' r' h
  simp only [randomSearch, Option.some.injEq, Prod.mk.injEq] at h
  rw [← h.2.2]
  exact hd r

theorem replay_random (draw : Rng G → List (String × PyVal) × Rng G)
    (hs : List (Unit × List View × PyFloat)) (r : Rng G) :
    (replay (randomSearch draw) () r hs).map (·.config) = draws draw hs.length r := by
  induction hs generalizing r with
  | nil => rfl
  | cons x hs ih =>
    obtain ⟨e, ts, b⟩ := x
    simp only [replay, randomSearch, List.map_cons, List.length_cons, draws]
    congr 1
    exact ih (draw r).2

/-- **C45**: with random search, in every execution without kills inside a sampling, of any number of
workers, the stored trials in order of creation have the configurations drawn one after the other
from the initial state of the generators. -/
theorem C45_random_search (draw : Rng G → List (String × PyVal) × Rng G)
    (hd : ∀ r, (draw r).2.cuda.isSome = r.cuda.isSome) (fs : String → Option PyFloat)
    (st : Nat → Settings) (r₀ : Rng G) (rng : Nat → Rng G) (hh : SameHosts r₀ rng)
    (as : List (SAct G Unit)) (has : ∀ a ∈ as, a.whole = true) :
    let W := (srun (randomSearch draw) fs st (start (randomSearch draw) r₀ rng) as).base
    W.ids.map (configOf W) = (draws draw W.ids.length r₀).map some := by
  intro W
  have hc : ∀ a ∈ as, a.clean = true := by
    intro a ha
    have := has a ha
    cases a with
    | act => rfl
    | killSampling => simp [SAct.whole] at this
  obtain ⟨h1, h2⟩ := C45_proposals_stored (randomSearch draw) fs st r₀ rng as
  have h2 := h2 has
  have h3 := C45_resume_partial (randomSearch draw) (fun _ => True) (randomSearch_independent draw)
    (randomSearch_keepsHost hd) fs st r₀ rng hh as hc (fun _ _ => trivial)
  change W.ids = _ at h2
  set X := srun (randomSearch draw) fs st (start (randomSearch draw) r₀ rng) as with hX
  have h4 : (proposals X).map (·.config) = draws draw (histories X).length r₀ := by
    rw [h3]
    exact replay_random draw _ r₀
  have h5 : (histories X).length = W.ids.length := by
    rw [h2]
    simp [histories, proposals]
  rw [← h5, ← h4, h2]
  simp only [List.map_map]
  refine List.map_congr_left (fun s hs => ?_)
  obtain ⟨t, i1, i2, i3⟩ := h1 s hs
  simp only [Function.comp, configOf]
  rw [show W.stored s.id = some t from i1]
  simp [i2]

theorem SameHistories.of_eq {h h' : List (E × List View × PyFloat)} (he : h.map (·.2) = h'.map (·.2)) :
    SameHistories h h' := by
  induction h generalizing h' with
  | nil =>
    cases h' with
    | nil => exact .nil
    | cons => simp at he
  | cons x h ih =>
    cases h' with
    | nil => simp at he
    | cons y h' =>
      simp only [List.map_cons, List.cons.injEq] at he
      exact .cons ⟨by rw [he.1], by rw [he.1]⟩ (ih he.2)

/-- Settings without limits. -/
def plain : Settings := { onError := .ignore }

/-- Steps of a worker whose objective returns 1 and leaves the generators in state `noise`. -/
def steps (w n : Nat) (e : E) (noise : Rng G) : List (SAct G E) :=
  List.replicate n (.act (.step w { outcome := .returned (.float (.num 1)) }) e noise)

/-- Generators of a process, for examples: python's, numpy's and torch's are in state `n`. -/
def gens (n : Nat) : Rng Nat := ⟨n, n, n, none⟩

/-- A draw that uses numpy's generator, for examples. -/
def drawNat (r : Rng Nat) : List (String × PyVal) × Rng Nat :=
  ([("x", .int r.np)], { r with np := r.np + 1 })

/-- The hypotheses are met: the first worker samples and evaluates a trial and is killed, the second
one, whose generators are in a different state, goes on. -/
example :
    let as : List (SAct Nat Unit) :=
      steps 0 8 () (gens 50) ++ [.act (.kill 0) () (gens 0)] ++ steps 1 5 () (gens 60)
    SameHosts (gens 7) (fun w => gens (100 * w)) ∧ (∀ a ∈ as, a.whole = true) ∧
    proposals (srun (randomSearch drawNat) (fun _ => none) (fun _ => plain)
      (start (randomSearch drawNat) (gens 7) (fun w => gens (100 * w))) as) =
      [⟨"1", [("x", .int 7)], none⟩, ⟨"2", [("x", .int 8)], none⟩] := by
  refine ⟨fun w => rfl, by decide, by decide +kernel⟩

/-! ## Kills inside a sampling -/

/-- **C45 fails** for a worker that is killed after it stored a trial and before it stored the
generators: the next worker draws the same configuration again. -/
theorem C45_killed_sampling_fails :
    ∃ (draw : Rng Nat → List (String × PyVal) × Rng Nat) (r₀ : Rng Nat) (rng : Nat → Rng Nat)
      (as : List (SAct Nat Unit)) (c : List (String × PyVal)),
      SameHosts r₀ rng ∧
      let W := (srun (randomSearch draw) (fun _ => none) (fun _ => plain)
        (start (randomSearch draw) r₀ rng) as).base
      W.ids = ["1", "2"] ∧ W.ids.map (configOf W) = [some c, some c] ∧
      (draws draw 2 r₀).Nodup := by
  refine ⟨drawNat, gens 7, fun _ => gens 0,
    steps 0 3 () (gens 50) ++ [.killSampling 0 {} ()] ++ steps 1 14 () (gens 60),
    [("x", .int 7)], fun _ => rfl, ?_⟩
  decide +kernel

/-! ## Grid search -/

/-- **C45** for grid search with a seed. -/
theorem C45_seeded_grid (grid : List (List (String × PyVal))) (seed : Int)
    (shuffle : Int → List (List (String × PyVal)) → List (List (String × PyVal))) :
    Reproducible (gridSearch (G := G) grid (some seed) shuffle) SAct.clean := by
  apply C45_reproducible_partial
  · intro o o' e e' ts ts' b r _ hp
    simp only [gridSearch, hp.length_eq, Option.getD_some]
  · intro o e ts b r s o' r' h
    simp only [gridSearch] at h
    split at h
    · simp at h
    · simp only [Option.map_eq_some_iff, Prod.mk.injEq] at h
      obtain ⟨c, -, -, -, h⟩ := h
      rw [h]

/-- **C45 fails** for grid search without a seed, the default: the order comes from the operating
system. -/
theorem C45_unseeded_grid_fails :
    ∃ (grid : List (List (String × PyVal)))
      (shuffle : Int → List (List (String × PyVal)) → List (List (String × PyVal))),
      (∀ e l, (shuffle e l).Perm l) ∧
      ¬ Reproducible (gridSearch (G := Nat) grid none shuffle) SAct.clean := by
  refine ⟨[[("x", .int 0)], [("x", .int 1)]], fun e l => if e = 0 then l else l.reverse, ?_, ?_⟩
  · intro e l
    dsimp only
    split
    · exact .refl _
    · exact List.reverse_perm l
  · intro h
    have := h (gens 0) (fun _ => gens 0) (fun _ => gens 0) (fun _ => none) (fun _ => plain) (fun _ => plain)
      (steps 0 4 0 (gens 0)) (steps 0 4 1 (gens 0)) (fun _ => rfl) (fun _ => rfl) (by decide)
      (by decide) (SameHistories.of_eq (by decide +kernel))
    revert this
    decide +kernel

/-! ## Initial designs -/

/-- **C45 fails** for Bayesian optimization (and ifBO, which does the same,
`neps/optimizers/multi_fidelity/ifbo.py:174-190`): the initial design is kept in the process, so a
restarted worker draws a new one and continues in the middle of that. -/
theorem C45_initial_design_fails :
    ∃ (design : Rng Nat → List (List (String × PyVal)) × Rng Nat)
      (model : List View → PyFloat → Rng Nat → Option (List (String × PyVal) × Rng Nat)),
      ¬ Reproducible (bayesian design model) SAct.clean := by
  refine ⟨fun r => ([[("x", .int r.torch)], [("x", .int (r.torch + 10))]],
    { r with torch := r.torch + 1 }), fun _ _ _ => none, ?_⟩
  intro h
  have := h (gens 0) (fun _ => gens 0) (fun _ => gens 0) (fun _ => none) (fun _ => plain) (fun _ => plain)
    (steps 0 13 () (gens 0)) (steps 0 8 () (gens 0) ++ steps 1 5 () (gens 0)) (fun _ => rfl)
    (fun _ => rfl) (by decide) (by decide) (SameHistories.of_eq (by decide +kernel))
  revert this
  decide +kernel

/-- The invariant of a run in which only worker `w` samples. -/
structure OneInv (A : Optimizer G O E) (r₀ : Rng G) (w : Nat) (W : SWorld G O E) : Prop where
  hosts : SameHosts r₀ W.rng
  nocuda : r₀.cuda = none → W.seed.cuda = none
  state : ∃ r, after A A.init r₀ (histories W) = some (W.opt w, r) ∧
    replay A A.init r₀ (histories W) = proposals W ∧ W.seed.read = some r.capture ∧
    r.cuda.isSome = r₀.cuda.isSome

theorem OneInv.sample {A : Optimizer G O E} {r₀ : Rng G} {w : Nat} {W : SWorld G O E}
    (hK : KeepsHost A) (I : OneInv A r₀ w W) (fs st c e) :
    OneInv A r₀ w (sample A fs st W w c e false) := by
  unfold Seed.sample
  split
  · exact ⟨I.hosts, I.nocuda, I.state⟩
  · next h s o r hp =>
    obtain ⟨snap, h1, h2, h3, h4, h5⟩ := propose_some hp
    have hr : r.cuda.isSome = r₀.cuda.isSome := by
      rw [hK _ _ _ _ _ _ _ _ h5, setGlobal_cuda]
      exact I.hosts w
    have hrn : r₀.cuda = none ↔ r.cuda = none := by
      cases hc : r₀.cuda <;> cases hc' : r.cuda <;> simp_all
    simp only [Bool.false_eq_true, if_false]
    split
    · exact ⟨I.hosts, I.nocuda, I.state⟩
    · obtain ⟨r₁, i1, i2, i3, i4⟩ := I.state
      rw [h1] at i3
      simp only [Option.some.injEq] at i3
      subst i3
      rw [setGlobal_capture _ _ (by rw [I.hosts w, i4])] at h5
      obtain ⟨j1, j2⟩ := after_append A (histories W) h A.init r₀ i1 h5
      refine ⟨upd_hosts I.hosts w hr, ?_, r, ?_, ?_, ?_, hr⟩
      · intro hn
        simp [SeedDir.write, Rng.capture, hrn.mp hn, I.nocuda hn]
      · simp only [upd, if_true]
        simpa [histories] using j1
      · simp only [histories, proposals, List.map_append, List.map_cons, List.map_nil] at *
        rw [j2, i2]
      · exact read_write _ _ (fun hn => I.nocuda (hrn.mpr hn))

/-- **C45 (partial)**: for every optimizer, if one process does all the sampling its proposals are
those of a process whose generators nobody else touches, whatever its evaluations do. -/
theorem C45_one_process_partial (A : Optimizer G O E) (hK : KeepsHost A)
    (fs : String → Option PyFloat) (st : Nat → Settings) (r₀ : Rng G) (rng : Nat → Rng G)
    (hh : SameHosts r₀ rng) (as : List (SAct G E)) (w : Nat)
    (has : ∀ a ∈ as, ∃ b e n, a = .act b e n ∧ b.who = w) :
    proposals (srun A fs st (start A r₀ rng) as) =
      replay A A.init r₀ (histories (srun A fs st (start A r₀ rng) as)) := by
  have key : ∀ (as : List (SAct G E)) (W : SWorld G O E), OneInv A r₀ w W →
      (∀ a ∈ as, ∃ b e n, a = .act b e n ∧ b.who = w) → OneInv A r₀ w (srun A fs st W as) := by
    intro as
    induction as with
    | nil => exact fun W I _ => I
    | cons a as ih =>
      intro W I has
      refine ih (sact A fs st W a) ?_ (fun b hb => has b (by simp [hb]))
      obtain ⟨b, e, n, rfl, hw⟩ := has a (by simp)
      cases b with
      | step w' c =>
        simp only [Act.who] at hw
        subst hw
        simp only [sact]
        split
        · exact I.sample hK fs st c e
        · exact ⟨upd_hosts I.hosts _ (by rw [setGlobal_cuda]; exact I.hosts _), I.nocuda, I.state⟩
      | kill w' => exact ⟨I.hosts, I.nocuda, I.state⟩
      | killCreating w' c torn => exact ⟨I.hosts, I.nocuda, I.state⟩
  obtain ⟨-, -, r, -, h, -⟩ := key as (start A r₀ rng)
    ⟨hh, fun h => by simp [Seed.start, SeedDir.write, Rng.capture, h], r₀, rfl, rfl,
      read_write _ _ (fun _ => rfl), rfl⟩ has
  exact h.symm

/-- One worker of Bayesian optimization goes through its initial design. -/
example :
    let A := bayesian (G := Nat) (fun r => ([[("x", .int r.torch)], [("x", .int (r.torch + 10))]],
      { r with torch := r.torch + 1 })) (fun _ _ _ => none)
    (∀ a ∈ steps 0 13 () (gens 3), ∃ b e n, a = SAct.act b e n ∧ b.who = 0) ∧
    (proposals (srun A (fun _ => none) (fun _ => plain) (start A (gens 0) (fun _ => gens 9))
      (steps 0 13 () (gens 3)))).map (·.config) = [[("x", .int 0)], [("x", .int 10)]] := by
  refine ⟨?_, by decide +kernel⟩
  intro a ha
  rw [List.eq_of_mem_replicate ha]
  exact ⟨_, _, _, rfl, rfl⟩

end Neps.Seed
