import Verif.Seed.Endless

/-!
# C148 A grid search evaluates the whole grid

`C21` is about the answers of grid search one after the other. These theorems are about a run: workers
in any number and any schedule, with crashes.
-/

namespace Neps.Seed

open Neps.Run

variable {G : Type}

/-- The configuration of a point of the grid. -/
abbrev Point := List (String × PyVal)

/-- The trials for the first `n` points of the list: point `i` is stored under the id `i`. -/
def numbered (pts : List Point) : List Sampled :=
  (List.range pts.length).zipWith (fun i c => ⟨String.ofList (Ids.natStr i), c, none⟩) pts

theorem numbered_length (pts : List Point) : (numbered pts).length = pts.length := by
  simp [numbered]

theorem numbered_config (pts : List Point) : (numbered pts).map (·.config) = pts := by
  apply List.ext_getElem
  · simp [numbered]
  · intro i h1 h2
    simp [numbered]

theorem numbered_append (pts : List Point) (c : Point) :
    numbered (pts ++ [c]) = numbered pts ++ [⟨String.ofList (Ids.natStr pts.length), c, none⟩] := by
  unfold numbered
  rw [List.length_append, List.length_singleton, List.range_succ, List.zipWith_append (by simp)]
  rfl

variable (grid : List Point) (seed : Int) (shuffle : Int → List Point → List Point)

/-- The proposals so far are the first points of the shuffled grid. -/
def GridInv (W : SWorld G Unit Int) : Prop :=
  ∃ n ≤ grid.length, proposals W = numbered ((shuffle seed grid).take n)

variable {grid seed shuffle}

theorem gridSearch_some {o e ts b r s o' r'}
    (h : (gridSearch (G := G) grid (some seed) shuffle).ask o e ts b r = some (s, o', r')) :
    ts.length < grid.length ∧ ∃ c, (shuffle seed grid)[ts.length]? = some c ∧
      s = ⟨String.ofList (Ids.natStr ts.length), c, none⟩ := by
  simp only [gridSearch] at h
  split at h
  · simp at h
  · next hlt =>
    simp only [Option.map_eq_some_iff, Prod.mk.injEq, Option.getD_some] at h
    obtain ⟨c, hc, rfl, -, -⟩ := h
    exact ⟨by omega, c, hc, rfl⟩

theorem GridInv.sample {fs st} {W : SWorld G Unit Int} (hsh : (shuffle seed grid).Perm grid)
    (L : LogEq fs W) (I : GridInv grid seed shuffle W) {w c e d} :
    GridInv grid seed shuffle (sample (gridSearch grid (some seed) shuffle) fs st W w c e d) := by
  unfold Seed.sample
  split
  · exact I
  · next h s o r hp =>
    simp only
    split
    · exact I
    · obtain ⟨n, hn, hI⟩ := I
      obtain ⟨snap, -, -, hseen, -, hask⟩ := propose_some hp
      obtain ⟨hlt, c, hc, rfl⟩ := gridSearch_some hask
      have hlen : h.2.1.length = n := by
        rw [(seen_perm hseen).length_eq, List.length_map]
        have := congrArg List.length L.eq
        rw [List.length_map] at this
        rw [this, hI, numbered_length, List.length_take, hsh.length_eq]
        omega
      rw [hlen] at hlt hc
      refine ⟨n + 1, by omega, ?_⟩
      simp only [proposals, List.map_append, List.map_cons, List.map_nil]
      have hI' : W.asked.map (·.2) = numbered ((shuffle seed grid).take n) := hI
      rw [hI', List.take_add_one, hc, Option.toList_some, numbered_append, hlen, List.length_take,
        hsh.length_eq, Nat.min_eq_left hn]

theorem GridInv.act {fs st} {W : SWorld G Unit Int} (hsh : (shuffle seed grid).Perm grid)
    (L : LogEq fs W) (I : GridInv grid seed shuffle W) (a : SAct G Int) :
    GridInv grid seed shuffle (sact (gridSearch grid (some seed) shuffle) fs st W a) := by
  cases a with
  | killSampling w c e =>
    simp only [sact]
    split
    · exact I.sample hsh L
    · exact I
  | act a e noise =>
    cases a with
    | step w c =>
      simp only [sact]
      split
      · exact I.sample hsh L
      · exact I
    | kill w => exact I
    | killCreating w c torn => exact I

theorem gridInv_run {fs st} (hsh : (shuffle seed grid).Perm grid) (as : List (SAct G Int))
    {W : SWorld G Unit Int} (L : LogEq fs W) (I : GridInv grid seed shuffle W) :
    GridInv grid seed shuffle (srun (gridSearch grid (some seed) shuffle) fs st W as) := by
  induction as generalizing W with
  | nil => exact I
  | cons a as ih => exact ih (L.act a) (I.act hsh L a)

/-- **C148**: in every execution of any number of workers, whatever is killed and when, the readable
trials of a run with grid search (and a seed) are the first points of the shuffled grid, in order of
creation, point `i` under the id `i`. So no point is proposed twice. -/
theorem C148_prefix (hsh : (shuffle seed grid).Perm grid) (fs : String → Option PyFloat)
    (st : Nat → Settings) (r₀ : Rng G) (rng : Nat → Rng G) (as : List (SAct G Int)) :
    let A := gridSearch (G := G) grid (some seed) shuffle
    let W := (srun A fs st (start A r₀ rng) as).base
    W.trials.length ≤ grid.length ∧
    W.trials.map (·.config) = (shuffle seed grid).take W.trials.length ∧
    W.trials.map (·.metadata.id) =
      (List.range W.trials.length).map (fun i => String.ofList (Ids.natStr i)) := by
  intro A W
  have L := (logEq_start A fs r₀ rng).run (A := A) (st := st) as
  obtain ⟨n, hn, hI⟩ := gridInv_run (fs := fs) (st := st) hsh as (logEq_start A fs r₀ rng)
    ⟨0, by omega, by simp [proposals, start, numbered]⟩
  have hT : W.trials.map toSampled = numbered ((shuffle seed grid).take n) := L.eq.trans hI
  have hlen : W.trials.length = n := by
    have := congrArg List.length hT
    rw [List.length_map, numbered_length, List.length_take, hsh.length_eq] at this
    omega
  refine ⟨by omega, ?_, ?_⟩
  · have := congrArg (List.map (·.config)) hT
    rw [numbered_config, List.map_map] at this
    rw [hlen]
    exact this
  · have := congrArg (List.map (·.id)) hT
    rw [List.map_map] at this
    rw [hlen]
    refine Eq.trans ?_ (this.trans ?_)
    · rfl
    · apply List.ext_getElem
      · simp [numbered, hsh.length_eq, hn]
      · intro i h1 h2
        simp [numbered]

/-- **C148**: if the grid has no point twice, then no two trials have the same configuration. -/
theorem C148_no_point_twice (hsh : (shuffle seed grid).Perm grid) (hnd : grid.Nodup)
    (fs : String → Option PyFloat) (st : Nat → Settings) (r₀ : Rng G) (rng : Nat → Rng G)
    (as : List (SAct G Int)) :
    let A := gridSearch (G := G) grid (some seed) shuffle
    ((srun A fs st (start A r₀ rng) as).base.trials.map (·.config)).Nodup := by
  intro A
  rw [(C148_prefix hsh fs st r₀ rng as).2.1]
  exact (hsh.nodup_iff.mpr hnd).sublist (List.take_sublist _ _)

/-- **C148**: if a worker stops because of `max_evaluations_total`, set to the size of the grid and
counting finished evaluations only, then there is exactly one trial for every point of the grid, and
all of them have a report. -/
theorem C148_stopped_complete (hsh : (shuffle seed grid).Perm grid) (fs : String → Option PyFloat)
    (st : Nat → Settings) (r₀ : Rng G) (rng : Nat → Rng G) (as : List (SAct G Int)) (w : Nat)
    (hs : (st w).maxEvalsTotal = some grid.length) (hi : (st w).includeInProgress = false) :
    let A := gridSearch (G := G) grid (some seed) shuffle
    let W := (srun A fs st (start A r₀ rng) as).base
    (W.worker w).pc = .stopped .evalsTotal →
    (W.trials.map (·.config)).Perm grid ∧ ∀ t ∈ W.trials, t.report.isSome := by
  intro A W hstop
  obtain ⟨h1, h2, -⟩ := C148_prefix hsh fs st r₀ rng as
  change W.trials.length ≤ _ at h1
  change W.trials.map _ = (shuffle seed grid).take W.trials.length at h2
  obtain ⟨bs, hb⟩ := srun_base A fs st (start A r₀ rng) as
  have hb' : W = run fs st {} bs := hb
  rw [hb'] at hstop
  have hc := C131_stopped_reached fs st bs w grid.length hs hstop
  rw [← hb'] at hc
  simp only [← evalCount_eq_spent, evalCount, hi, Bool.false_eq_true, if_false] at hc
  have hle := List.countP_le_length (p := fun t : Trial => t.report.isSome) (l := W.trials)
  have hlen : W.trials.length = grid.length := by omega
  refine ⟨?_, ?_⟩
  · rw [h2, List.take_of_length_le (by rw [hsh.length_eq]; omega)]
    exact hsh
  · exact List.countP_eq_length.mp (by omega)

/-! ## Endless schedules -/

/-- **C148**: a grid search (with a seed) run by any number of workers that are not killed, with
`max_evaluations_total` set to the size of the grid as the only limit, evaluates the whole grid in every
fair schedule: in the end all workers are through, there is exactly one trial for every point of the
grid, and all of them have been evaluated. Workers may lose races against each other, and find the grid
exhausted. -/
theorem C148_whole_grid (hsh : (shuffle seed grid).Perm grid) (fs : String → Option PyFloat)
    (st : Nat → Settings) (r₀ : Rng G) (rng : Nat → Rng G) (n : Nat) (inc : Bool) (hn : 0 < n)
    (hs : ∀ w < n, OnlyTotal (st w) grid.length ∧ (st w).includeInProgress = inc)
    (τ : Nat → SAct G Int) (hτ : ∀ i, ∃ w < n, ∃ c e noise, τ i = .act (.step w c) e noise)
    (hf : ∀ w < n, ∀ k, ∃ j ≥ k, ∃ c e noise, τ j = .act (.step w c) e noise)
    (hp : ∀ i w c e noise v, τ i = .act (.step w c) e noise → c.outcome = .returned v →
      ∃ p, parseUserResult fs v (st w).dv.costIfNotProvided
        (st w).dv.learningCurveIfNotProvided = .ok p) :
    ∃ k, ∀ j ≥ k,
      let W := (safter (gridSearch grid (some seed) shuffle) fs st r₀ rng τ j).base
      (W.trials.map (·.config)).Perm grid ∧ (∀ t ∈ W.trials, Evaluated t) ∧
      ∀ w < n, Through W w := by
  set A := gridSearch (G := G) grid (some seed) shuffle with hA
  let X := safter A fs st r₀ rng τ
  let σ : Nat → Act := fun i => baseAct A (X i) (τ i)
  have hbase : ∀ i, (X i).base = Run.after fs st σ i := by
    intro i
    induction i with
    | zero => rfl
    | succ i ih =>
      obtain ⟨w, _, c, e, noise, h⟩ := hτ i
      change (safter A fs st r₀ rng τ (i + 1)).base = _
      rw [safter_succ, after_succ, ← ih, h, sact_step_base, ← h]
  have hstep : ∀ i w c e noise, τ i = .act (.step w c) e noise →
      ∃ c', σ i = .step w c' ∧ c'.outcome = c.outcome := by
    intro i w c e noise h
    simp only [σ, h, baseAct]
    split
    · exact ⟨_, rfl, rfl⟩
    · exact ⟨_, rfl, rfl⟩
  have hσ : ∀ i, ∃ w < n, ∃ c, σ i = .step w c := by
    intro i
    obtain ⟨w, hw, c, e, noise, h⟩ := hτ i
    obtain ⟨c', h', -⟩ := hstep i w c e noise h
    exact ⟨w, hw, c', h'⟩
  have hun : ∀ i, Untorn (σ i) := by
    intro i w' c' torn e
    obtain ⟨w, hw, c, h⟩ := hσ i
    rw [h] at e; simp at e
  have hS : ∀ i, Safe (Run.after fs st σ i) := fun i => safe_run _ (by
    intro a ha
    obtain ⟨i, _, rfl⟩ := List.mem_map.mp ha
    exact hun i) (Coh.init fs) Safe.init
  have hpre := fun i => C148_prefix (G := G) hsh fs st r₀ rng ((List.range i).map τ)
  have hids : ∀ i, (Run.after fs st σ i).trials.map (·.metadata.id) = (Run.after fs st σ i).ids :=
    fun i => trials_of_readable (hS i).readable (coh_run fs st _).names
  have hlen : ∀ i, (Run.after fs st σ i).trials.length = (Run.after fs st σ i).ids.length := by
    intro i
    rw [← hids i, List.length_map]
  have h1 : Fair n σ := by
    intro w hw m
    obtain ⟨j, hj, c, e, noise, h⟩ := hf w hw m
    obtain ⟨c', h', -⟩ := hstep j w c e noise h
    exact ⟨j, hj, c', h'⟩
  have h2 : ∀ i, Understood fs st (σ i) := by
    intro i w c v h hv
    obtain ⟨w', hw, c', e, noise, h'⟩ := hτ i
    obtain ⟨c'', h1, h2⟩ := hstep i w' c' e noise h'
    rw [h1] at h
    simp only [Act.step.injEq] at h
    obtain ⟨rfl, rfl⟩ := h
    exact hp i w' c' e noise v h' (h2 ▸ hv)
  have h3 : ∀ i, grid.length ≤ (Run.after fs st σ i).ids.length →
      grid.length ≤ (Run.after fs st σ (i + 1)).ids.length := by
    intro i h
    rw [after_succ]
    exact h.trans (act_ids_length _ _ _ _)
  have h4 : ∀ i, Answered (Run.after fs st σ i) (σ i) ∨
      grid.length ≤ (Run.after fs st σ i).ids.length := by
    intro i
    by_cases hfull : grid.length ≤ (Run.after fs st σ i).ids.length
    · exact Or.inr hfull
    left
    intro w c h hpc
    obtain ⟨w', hw, c', e, noise, h'⟩ := hτ i
    have hal : ((X i).base.worker w).alive = true := by
      rw [hbase i]
      exact after_alive (fun i => (hσ i).imp (fun w h => h.2)) i w
    simp only [σ, h', baseAct] at h
    have hsame : w' = w := by
      split at h
      · simp only [Act.step.injEq] at h; exact h.1
      · simp only [Act.step.injEq] at h; exact h.1
    subst hsame
    have hsam : samples (X i).base w' = true := by
      have hal' := hal
      rw [hbase i] at hal'
      simp [samples, hal', hbase i, hpc]
    rw [hsam] at h
    simp only [if_true, Act.step.injEq, true_and] at h
    subst h
    -- the optimizer answers
    have hread : ∀ id ∈ (X i).base.ids, ((X i).base.stored id).isSome := by
      rw [hbase i]; exact (hS i).readable
    obtain ⟨ts, hts⟩ := mapM_total (l := listing (X i).base c') (f := fun id =>
        match Store.load ((X i).base.disk id) with
        | .ok h => some (view h.cur)
        | .error _ => none) (by
      intro id hid
      obtain ⟨t, ht⟩ := Option.isSome_iff_exists.mp
        (hread id ((listing_perm _ _).subset hid))
      obtain ⟨v, hv⟩ := stored_load ht
      simp [hv])
    have hseen : seen (X i).base c' = some ts := hts
    have htl : ts.length = (Run.after fs st σ i).ids.length := by
      rw [(seen_perm hseen).length_eq, List.length_map, hbase i, hlen i]
    obtain ⟨snap, hsnap⟩ := Option.isSome_iff_exists.mp
      (seed_readable A fs st (W := start A r₀ rng) (by
        simp [start, SeedDir.write, SeedDir.read]) ((List.range i).map τ))
    have hlt : ts.length < (shuffle seed grid).length := by rw [hsh.length_eq, htl]; omega
    have hpr : propose A (X i) w' c' e = some ((e, ts, (X i).base.budget),
        ⟨String.ofList (Ids.natStr ts.length), (shuffle seed grid)[ts.length], none⟩, (),
        snap.setGlobal ((X i).rng w')) := by
      have hs' : (X i).seed.read = some snap := hsnap
      simp only [propose, hseen, hs', hA, gridSearch, Option.getD_some]
      rw [if_neg (by omega), List.getElem?_eq_getElem hlt]
      rfl
    refine ⟨_, by rw [hpr]; rfl, ?_, by simp⟩
    rw [← hids i]
    obtain ⟨-, -, g3⟩ := hpre i
    change (X i).base.trials.map _ = (List.range (X i).base.trials.length).map _ at g3
    rw [hbase i] at g3
    rw [g3, hlen i, ← htl]
    simp only [List.mem_map, List.mem_range, not_exists, not_and]
    intro m hm hme
    have := Ids.natStr_injective (String.ofList_injective hme)
    omega
  obtain ⟨k, hk⟩ := job_done_or (fun W => grid.length ≤ W.ids.length) fs st n grid.length inc hn hs σ
    hσ h1 h2 h3 h4
  refine ⟨k, fun j hj => ?_⟩
  obtain ⟨h1, h2, h3⟩ := hk j hj
  change (((X j).base.trials.map (·.config)).Perm grid ∧ (∀ t ∈ (X j).base.trials, Evaluated t) ∧
    ∀ w < n, Through (X j).base w)
  obtain ⟨g1, g2, -⟩ := hpre j
  change (X j).base.trials.length ≤ _ at g1
  change (X j).base.trials.map _ = (shuffle seed grid).take (X j).base.trials.length at g2
  have hge : grid.length ≤ (X j).base.trials.length := by
    rw [hbase j]
    rcases h2 with h2 | h2
    · rw [hlen j]; exact h2
    · exact h2.1
  refine ⟨?_, by rw [hbase j]; exact h1, by rw [hbase j]; exact h3⟩
  rw [g2, List.take_of_length_le (by rw [hsh.length_eq]; omega)]
  exact hsh

/-- **C148 fails** without a seed, the default of grid search: every `ask` shuffles anew, so one worker
evaluates a point twice and stops without the other one. -/
theorem C148_unseeded_fails :
    ∃ (grid : List Point) (shuffle : Int → List Point → List Point) (as : List (SAct Nat Int)),
      (∀ e l, (shuffle e l).Perm l) ∧ grid.Nodup ∧
      let A := gridSearch (G := Nat) grid none shuffle
      let W := (srun A (fun _ => none) (Run.limited grid.length) (start A (gens 0) (fun _ => gens 0))
        as).base
      (W.worker 0).pc = .stopped .evalsTotal ∧
      W.trials.map (·.config) = [[("x", .int 0)], [("x", .int 0)]] ∧
      [("x", .int 1)] ∈ grid := by
  refine ⟨[[("x", .int 0)], [("x", .int 1)]], fun e l => if e = 0 then l else l.reverse,
    steps 0 10 0 (gens 0) ++ steps 0 20 1 (gens 0), ?_, by decide, ?_⟩
  · intro e l
    dsimp only
    split
    · exact .refl _
    · exact List.reverse_perm l
  · decide +kernel

/-! ## Cases that meet the hypotheses -/

/-- A grid with three points. -/
def threePoints : List Point := [[("x", .int 0)], [("x", .int 1)], [("x", .int 2)]]

/-- Two workers that take turns. -/
def twoInTurn (i : Nat) : SAct Nat Int :=
  .act (.step (i % 2) { outcome := .returned (.float (.num 1)) }) 0 (gens i)

/-- Two workers and a grid with three points that is shuffled by turning it around. -/
example : ∃ k, ∀ j ≥ k,
    let W := (safter (gridSearch threePoints (some 5) (fun _ l => l.reverse)) Run.noFloat
      (Run.limited 3) (gens 0) (fun _ => gens 1) twoInTurn j).base
    (W.trials.map (·.config)).Perm threePoints ∧ (∀ t ∈ W.trials, Evaluated t) ∧
    ∀ w < 2, Through W w := by
  refine C148_whole_grid (seed := 5) (shuffle := fun _ l => l.reverse) (List.reverse_perm _) Run.noFloat
    (Run.limited 3) (gens 0) (fun _ => gens 1) 2 true (by omega)
    (fun w _ => ⟨⟨rfl, rfl, rfl, rfl, rfl, rfl, rfl, rfl⟩, rfl⟩) twoInTurn
    (fun i => ⟨i % 2, Nat.mod_lt _ (by omega), _, _, _, rfl⟩) ?_ ?_
  · intro w hw k
    refine ⟨2 * k + w, by omega, { outcome := .returned (.float (.num 1)) }, 0, gens (2 * k + w), ?_⟩
    unfold twoInTurn
    have : (2 * k + w) % 2 = w := by omega
    rw [this]
  · intro i w c e noise v h hv
    simp only [twoInTurn, SAct.act.injEq, Act.step.injEq] at h
    obtain ⟨⟨rfl, rfl⟩, -⟩ := h
    simp only [Outcome.returned.injEq] at hv
    subst hv
    exact ⟨_, rfl⟩

/-- Such a run after 100 actions. -/
example :
    let W := (safter (gridSearch threePoints (some 5) (fun _ l => l.reverse)) Run.noFloat
      (Run.limited 3) (gens 0) (fun _ => gens 1) twoInTurn 100).base
    W.trials.map (·.config) = threePoints.reverse ∧
    (W.worker 0).pc = .stopped .evalsTotal := by
  decide +kernel

/-- The same with a limit that counts finished evaluations only, as `C148_stopped_complete` supposes. -/
example :
    let st : Nat → Settings :=
      fun _ => { onError := .ignore, maxEvalsTotal := some 3, includeInProgress := false }
    let W := (srun (gridSearch threePoints (some 5) (fun _ l => l.reverse)) Run.noFloat st
      (start (gridSearch threePoints (some 5) (fun _ l => l.reverse)) (gens 0) (fun _ => gens 1))
      (steps 0 50 0 (gens 3))).base
    (W.worker 0).pc = .stopped .evalsTotal ∧ W.trials.map (·.config) = threePoints.reverse := by
  decide +kernel

end Neps.Seed
