import Verif.Seed.MFLog

/-!
# C72: multi-fidelity optimizers in runs with several workers and crashes
-/

namespace Neps.Seed

open Neps.Run Neps.MF
open Neps.Store (Disk Handle)

variable {G O E P F : Type}

/-- **C45**: in every execution, with kills at any point, the readable trials in order of creation
are exactly the proposals: same id, configuration and predecessor. -/
theorem C45_trials_are_proposals (A : Optimizer G O E) (fs : String → Option PyFloat)
    (st : Nat → Run.Settings) (r₀ : Rng G) (rng : Nat → Rng G) (as : List (SAct G E)) :
    let W := srun A fs st (start A r₀ rng) as
    W.base.trials.map (fun t => (⟨t.metadata.id, t.config, t.metadata.previousTrialId⟩ : Sampled)) =
      proposals W :=
  ((logEq_start A fs r₀ rng).run as).eq

/-- **C72**: whatever the schedule of the workers and wherever they are killed, the stored trials are
a history of the optimizer: they come from asks, each on the trials stored at that time, and reports.
The theorems about histories (`MF/Props.lean`) therefore hold for every run. Unless a finished
trial is claimed again, every trial is reported at most once. -/
theorem C72_histories {K : Codec P F} (hK : K.Faithful) {M : MFParts G E P F} {A : AskFn P F → Prop}
    {budget : Nat → F} (hA : IsMF budget A) (hM : ∀ r, A (M.choose r).1)
    (fs : String → Option PyFloat) (st : Nat → Run.Settings) (r₀ : Rng G) (rng : Nat → Rng G)
    (as : List (SAct G E)) :
    let W := srun (multiFidelity K M) fs st (start (multiFidelity K M) r₀ rng) as
    ∃ H, readAll K W.base = some H ∧ Reach A H ∧
      ((∀ c ∈ claims W.base.log, c.2.2.state = .pending) → ReachOnce A H) :=
  ((mfInv_start K M A fs r₀ rng).run hK hA hM as).hist

theorem stored_of_mem {fs} {W : World} (C : Coh fs W) {t : Trial} (h : t ∈ W.trials) :
    W.stored t.metadata.id = some t := by
  simp only [World.trials, List.mem_filterMap] at h
  obtain ⟨id, -, h1⟩ := h
  rw [C.names id t (stored_eq_some.mp h1).2]
  exact h1

theorem mem_of_stored {fs} {W : World} (C : Coh fs W) {id : String} {t : Trial}
    (h : W.stored id = some t) : t ∈ W.trials := by
  simp only [World.trials, List.mem_filterMap]
  refine ⟨id, ?_, h⟩
  by_contra hn
  rw [stored_none_of_not_mem C hn] at h
  simp at h

theorem mapM_mem {A B : Type} {f : A → Option B} {l : List A} {xs : List B} (h : l.mapM f = some xs) :
    (∀ a ∈ l, ∃ x ∈ xs, f a = some x) ∧ ∀ x ∈ xs, ∃ a ∈ l, f a = some x := by
  rw [mapM_eq_some] at h
  constructor
  · intro a ha
    have : f a ∈ xs.map some := h ▸ List.mem_map_of_mem ha
    obtain ⟨x, hx, e⟩ := List.mem_map.mp this
    exact ⟨x, hx, e.symm⟩
  · intro x hx
    have : some x ∈ l.map f := h ▸ List.mem_map_of_mem hx
    exact List.mem_map.mp this

theorem idStr_inj {k k' : Key} (h : idStr k = idStr k') : k = k' := by
  have h : Ids.fmtId k.cfg k.rung = Ids.fmtId k'.cfg k'.rung := String.ofList_injective h
  obtain ⟨h1, h2⟩ := Ids.fmtId_injective h
  cases k; cases k'
  simp_all

theorem parse_idStr (k : Key) : Ids.parseId (idStr k).toList = some (k.cfg, k.rung) := by
  simp [idStr, Ids.parseId_fmtId]

/-- `C72_continuation` for every state with the invariants. -/
theorem continuation_of {K : Codec P F} (hK : K.Faithful) {A : AskFn P F → Prop} {budget : Nat → F}
    (hA : IsMF budget A) {fs : String → Option PyFloat} {W : SWorld G Unit E}
    (J : MFInv K A fs W.base) (I : AskInv K A W) (L : W.base.trials.map toSampled = proposals W) :
    ∀ id t p, W.base.stored id = some t → t.metadata.previousTrialId = some p →
      ∃ t' c r hp, W.base.stored p = some t' ∧ t'.report.isSome ∧
        p = String.ofList (Ids.fmtId c r) ∧ id = String.ofList (Ids.fmtId c (r + 1)) ∧
        t'.config = K.enc hp (budget r) ∧ t.config = K.enc hp (budget (r + 1)) := by
  intro id t p ht hprev
  have hin : ∀ {id t}, W.base.stored id = some t → ∃ x ∈ W.asked, x.2 = ⟨id, t.config, t.metadata.previousTrialId⟩ := by
    intro id t h
    have h1 : (⟨t.metadata.id, t.config, t.metadata.previousTrialId⟩ : Sampled) ∈
        proposals W := by
      rw [← L]
      exact List.mem_map_of_mem (f := fun t : Trial =>
        (⟨t.metadata.id, t.config, t.metadata.previousTrialId⟩ : Sampled)) (mem_of_stored J.coh h)
    rw [J.coh.names id t (stored_eq_some.mp h).2] at h1
    exact List.mem_map.mp h1
  obtain ⟨x, hx, hxs⟩ := hin ht
  obtain ⟨H, H', f, new, q, hR, hP, hf, hm, hask, hq⟩ := I.asks x hx
  rw [hq] at hxs
  simp only [sampledOf, Sampled.mk.injEq] at hxs
  obtain ⟨e1, e2, e3⟩ := hxs
  rw [hprev] at e3
  obtain ⟨k, hk, hkp⟩ := Option.map_eq_some_iff.mp e3
  obtain ⟨t0, ht0, c1, c2, c3, c4, c5, c6, c7⟩ := C24_promotion_continues hA hR hP hf hask hk
  obtain ⟨v, hv, hrv⟩ := (mapM_mem hm).2 t0 (hP.mem_iff.mpr ht0)
  obtain ⟨r1, r2, r3⟩ := recOf_some hrv
  obtain ⟨t', g1, g2, g3⟩ := I.views x hx v hv
  obtain ⟨y, hy, hys⟩ := hin g1
  obtain ⟨-, -, -, -, q', -, -, -, -, -, hq'⟩ := I.asks y hy
  rw [hq'] at hys
  simp only [sampledOf, Sampled.mk.injEq] at hys
  obtain ⟨d1, d2, d3⟩ := hys
  have hkey : q'.key = t0.key := by
    rw [← d1, parse_idStr] at r1
    simp only [Option.some.injEq, Prod.mk.injEq] at r1
    cases hq : q'.key; cases ht : t0.key
    simp_all
  have hcfg : (q'.params, q'.fid) = (t0.params, t0.fid) := by
    rw [← g2, ← d2, hK] at r2
    simpa using r2
  simp only [Prod.mk.injEq] at hcfg
  have hvp : v.id = p := by rw [← d1, hkey, c1, hkp]
  refine ⟨t', k.cfg, k.rung, t0.params, hvp ▸ g1, g3 ?_, hkp.symm, ?_, ?_, ?_⟩
  · cases hres : v.result with
    | none =>
      rw [hres] at r3
      simp only [resOf, Option.some.injEq] at r3
      exact absurd r3.symm c2
    | some _ => rfl
  · rw [← e1, c4]; rfl
  · rw [← d2, hcfg.1, hcfg.2, c6]
  · rw [← e2, c3, c5]

/-- **C72**: a stored trial that continues another one: that trial is stored, finished, has the same
hyperparameters, the id of the rung below, and both have the fidelity of their rung. -/
theorem C72_continuation {K : Codec P F} (hK : K.Faithful) {M : MFParts G E P F}
    {A : AskFn P F → Prop} {budget : Nat → F} (hA : IsMF budget A) (hM : ∀ r, A (M.choose r).1)
    (fs : String → Option PyFloat) (st : Nat → Run.Settings) (r₀ : Rng G) (rng : Nat → Rng G)
    (as : List (SAct G E)) :
    let W := (srun (multiFidelity K M) fs st (start (multiFidelity K M) r₀ rng) as).base
    ∀ id t p, W.stored id = some t → t.metadata.previousTrialId = some p →
      ∃ t' c r hp, W.stored p = some t' ∧ t'.report.isSome ∧
        p = String.ofList (Ids.fmtId c r) ∧ id = String.ofList (Ids.fmtId c (r + 1)) ∧
        t'.config = K.enc hp (budget r) ∧ t.config = K.enc hp (budget (r + 1)) := by
  intro W
  have J := (mfInv_start K M A fs r₀ rng).run (st := st) hK hA hM as
  have I : AskInv K A (srun (multiFidelity K M) fs st (start (multiFidelity K M) r₀ rng) as) :=
    askInv_run hK hA hM ⟨by simp [start], by simp [start]⟩ (mfInv_start K M A fs r₀ rng) as
  exact continuation_of hK hA J I (C45_trials_are_proposals (multiFidelity K M) fs st r₀ rng as)

/-- `C72_numbering` for every state with the invariants. -/
theorem numbering_of {K : Codec P F} {A : AskFn P F → Prop} {budget : Nat → F}
    (hA : IsMF budget A) {fs : String → Option PyFloat} {W : SWorld G Unit E}
    (J : MFInv K A fs W.base) (I : AskInv K A W) (L : W.base.trials.map toSampled = proposals W) :
    ∃ n, ∀ c, (∃ r t, W.base.stored (String.ofList (Ids.fmtId c r)) = some t) ↔ c < n := by
  obtain ⟨H, h1, h2, -⟩ := J.hist
  obtain ⟨n, hn⟩ := (h2.inv hA).dense
  refine ⟨n, fun c => ?_⟩
  rw [← hn c]
  constructor
  · rintro ⟨r, t, ht⟩
    obtain ⟨x, hx, hrx⟩ := (mapM_mem h1).1 t (mem_of_stored J.coh ht)
    refine ⟨x, hx, ?_⟩
    obtain ⟨r1, -⟩ := recOf_some hrx
    have hid : t.metadata.id = idStr ⟨c, r⟩ := J.coh.names _ t (stored_eq_some.mp ht).2
    rw [show (view t).id = idStr ⟨c, r⟩ from hid, parse_idStr] at r1
    simp only [Option.some.injEq, Prod.mk.injEq] at r1
    exact r1.1.symm
  · rintro ⟨x, hx, rfl⟩
    obtain ⟨t, ht, hrx⟩ := (mapM_mem h1).2 x hx
    have h3 : (⟨t.metadata.id, t.config, t.metadata.previousTrialId⟩ : Sampled) ∈
        proposals W := by
      rw [← L]
      exact List.mem_map_of_mem (f := fun t : Trial =>
        (⟨t.metadata.id, t.config, t.metadata.previousTrialId⟩ : Sampled)) ht
    obtain ⟨y, hy, hys⟩ := List.mem_map.mp h3
    obtain ⟨-, -, -, -, q', -, -, -, -, -, hq'⟩ := I.asks y hy
    rw [hq'] at hys
    simp only [sampledOf, Sampled.mk.injEq] at hys
    obtain ⟨r1, -⟩ := recOf_some hrx
    have hst := stored_of_mem J.coh ht
    have hid : (view t).id = idStr q'.key := hys.1.symm
    rw [hid, parse_idStr] at r1
    simp only [Option.some.injEq, Prod.mk.injEq] at r1
    refine ⟨q'.key.rung, t, ?_⟩
    rw [← hys.1] at hst
    rw [← r1.1]
    exact hst

/-- **C72**: the configurations of the stored trials are numbered from 0 without gaps, and a number
with a rung names one trial. -/
theorem C72_numbering {K : Codec P F} (hK : K.Faithful) {M : MFParts G E P F}
    {A : AskFn P F → Prop} {budget : Nat → F} (hA : IsMF budget A) (hM : ∀ r, A (M.choose r).1)
    (fs : String → Option PyFloat) (st : Nat → Run.Settings) (r₀ : Rng G) (rng : Nat → Rng G)
    (as : List (SAct G E)) :
    let W := (srun (multiFidelity K M) fs st (start (multiFidelity K M) r₀ rng) as).base
    ∃ n, ∀ c, (∃ r t, W.stored (String.ofList (Ids.fmtId c r)) = some t) ↔ c < n := by
  intro W
  have J := (mfInv_start K M A fs r₀ rng).run (st := st) hK hA hM as
  have I : AskInv K A (srun (multiFidelity K M) fs st (start (multiFidelity K M) r₀ rng) as) :=
    askInv_run hK hA hM ⟨by simp [start], by simp [start]⟩ (mfInv_start K M A fs r₀ rng) as
  exact numbering_of hA J I (C45_trials_are_proposals (multiFidelity K M) fs st r₀ rng as)

/-! ## Hyperband -/

/-- **C72**: in every run with hyperband every bracket keeps its quota at every rung. -/
theorem C72_quota {K : Codec P F} (hK : K.Faithful) {M : MFParts G E P F} {ms : MF.Settings}
    {budget : Nat → F} {bs : Nat → Bracket F} {nb : Nat} (hbud : ∀ i, i < nb → Agrees (bs i) budget)
    (hg : ∀ i, i < nb → Good (bs i)) (hnb : 0 < nb) (hM : ∀ r, IsHB ms bs nb (M.choose r).1)
    (fs : String → Option PyFloat) (st : Nat → Run.Settings) (r₀ : Rng G) (rng : Nat → Rng G)
    (as : List (SAct G E)) :
    let W := (srun (multiFidelity K M) fs st (start (multiFidelity K M) r₀ rng) as).base
    ∃ H, readAll K W = some H ∧ ∀ k r, (bs (k % nb)).minR ≤ r → r ≤ (bs (k % nb)).maxR →
      evaluatedAt H (sliceStart bs nb ms.offset k) (bs (k % nb)).size r ≤ (bs (k % nb)).cap r := by
  intro W
  obtain ⟨H, h1, h2, -⟩ := C72_histories hK (.hb ms bs nb hbud hnb) hM fs st r₀ rng as
  exact ⟨H, h1, fun k r a b => (C23_sync_quota hbud hg hnb h2 k r a b).1⟩

/-- **C72**: in every run with hyperband in which no finished trial is claimed again, of two stored
trials of a bracket at the same rung of which only the first went to the next rung, the first is not
worse, and the rung got its full quota. -/
theorem C72_best {K : Codec P F} (hK : K.Faithful) {M : MFParts G E P F} {ms : MF.Settings}
    {budget : Nat → F} {bs : Nat → Bracket F} {nb : Nat} (hbud : ∀ i, i < nb → Agrees (bs i) budget)
    (hg : ∀ i, i < nb → Good (bs i)) (hnb : 0 < nb) (hM : ∀ r, IsHB ms bs nb (M.choose r).1)
    (fs : String → Option PyFloat) (st : Nat → Run.Settings) (r₀ : Rng G) (rng : Nat → Rng G)
    (as : List (SAct G E)) :
    let W := (srun (multiFidelity K M) fs st (start (multiFidelity K M) r₀ rng) as).base
    (∀ c ∈ claims W.log, c.2.2.state = .pending) →
    ∃ H, readAll K W = some H ∧ ∀ k, ∀ t ∈ H, ∀ t' ∈ H, t.key.rung = t'.key.rung →
      InSlice (sliceStart bs nb ms.offset k) (bs (k % nb)).size t →
      InSlice (sliceStart bs nb ms.offset k) (bs (k % nb)).size t' →
      ¬ Unpromoted H t → Unpromoted H t' →
      evaluatedAt H (sliceStart bs nb ms.offset k) (bs (k % nb)).size t.key.rung
        = (bs (k % nb)).cap t.key.rung ∧
      ∃ x x', lossOf ms t = some x ∧ lossOf ms t' = some x' ∧ PyFloat.le x x' = true := by
  intro W hc
  obtain ⟨H, h1, -, h3⟩ := C72_histories hK (.hb ms bs nb hbud hnb) hM fs st r₀ rng as
  exact ⟨H, h1, fun k t ht t' ht' hr i1 i2 i3 i4 =>
    C23_sync_best hbud hg hnb (h3 hc) ht ht' hr i1 i2 i3 i4⟩

/-! ## Sampling succeeds -/

theorem seed_readable (A : Optimizer G O E) (fs : String → Option PyFloat) (st : Nat → Run.Settings)
    {W : SWorld G O E} (h : W.seed.read.isSome) (as : List (SAct G E)) :
    (srun A fs st W as).seed.read.isSome := by
  have hw : ∀ (s : Snapshot G) (d : SeedDir G), (d.write s).read.isSome := by
    intro s d
    simp [SeedDir.write, SeedDir.read]
  have hs : ∀ (W : SWorld G O E) w c e d, W.seed.read.isSome → (sample A fs st W w c e d).seed.read.isSome := by
    intro W w c e d h
    unfold Seed.sample
    split
    · exact h
    · simp only
      split
      · exact h
      · simp only
        cases d with
        | true => exact h
        | false => exact hw _ _
  induction as generalizing W with
  | nil => exact h
  | cons a as ih =>
    apply ih
    cases a with
    | killSampling w c e =>
      simp only [sact]
      split
      · exact hs _ _ _ _ _ h
      · exact h
    | act a e noise =>
      cases a with
      | step w c =>
        simp only [sact]
        split
        · exact hs _ _ _ _ _ h
        · exact h
      | kill w => exact h
      | killCreating w c torn => exact h

theorem mapM_total {A B : Type} {f : A → Option B} {l : List A} (h : ∀ a ∈ l, (f a).isSome) :
    ∃ xs, l.mapM f = some xs := by
  induction l with
  | nil => exact ⟨[], rfl⟩
  | cons a l ih =>
    obtain ⟨xs, hx⟩ := ih (fun b hb => h b (by simp [hb]))
    obtain ⟨x, hx'⟩ := Option.isSome_iff_exists.mp (h a (by simp))
    exact ⟨x :: xs, by simp [List.mapM_cons, hx, hx']⟩

theorem stored_load {W : World} {id : String} {t : Trial} (h : W.stored id = some t) :
    ∃ v, Store.load (W.disk id) = .ok ⟨t, v⟩ := by
  obtain ⟨⟨v, hv⟩, hd⟩ := stored_eq_some.mp h
  exact ⟨v, load_some hv hd⟩

/-- The optimizers answer on every history whose failed evaluations are handled, if there are any. -/
def Answers (A : AskFn P F → Prop) (handled : Prop) : Prop :=
  ∀ H H' : List (Rec P F), Reach A H → H'.Perm H → (∀ t ∈ H, t.res = .error → handled) →
    ∀ f, A f → ∀ new, ∃ p, f H' new = .ok p

/-- The evaluation of the trial failed or crashed. -/
def Failed (t : Trial) : Prop := ∃ r, t.report = some r ∧ r.reportedAs ≠ .success

/-- A trial read as an error has failed. -/
theorem failed_of_error {K : Codec P F} {t : Trial} {x : Rec P F} (h : recOf K (view t) = some x)
    (he : x.res = .error) : Failed t := by
  obtain ⟨-, -, h3⟩ := recOf_some h
  rw [he] at h3
  unfold view at h3
  cases hr : t.report with
  | none => simp [hr, resOf] at h3
  | some r =>
    refine ⟨r, hr, fun hs => ?_⟩
    simp only [hr, Option.map_some, hs] at h3
    cases hl : r.loss <;> simp [hl, resOf] at h3

/-- A proposal with a new id that continues a stored trial, if any, is stored. -/
theorem proposal_stored {K : Codec P F} {A : AskFn P F → Prop} {fs : String → Option PyFloat}
    {st : Nat → Run.Settings} {W : SWorld G Unit E} (J : MFInv K A fs W.base) (I : AskInv K A W)
    (L : W.base.trials.map toSampled = proposals W)
    (hall : ∀ id ∈ W.base.ids, (W.base.stored id).isSome) {w : Nat}
    (hal : (W.base.worker w).alive = true) (hpc : (W.base.worker w).pc = .sample)
    {H : List (Rec P F)} (h1 : readAll K W.base = some H) {p : Proposal P F}
    (hkey : p.key ∉ H.map (·.key)) (hprev : ∀ k, p.prev = some k → ∃ t0 ∈ H, t0.key = k) (c : Choice) :
    let b := act fs st W.base (.step w { c with ask := some (sampledOf K p) })
    ∃ t, idStr p.key ∉ W.base.ids ∧ b.ids = W.base.ids ++ [idStr p.key] ∧
      b.stored (idStr p.key) = some t ∧ t.state = .pending ∧ t.report = none := by
  have hs : samples W.base w = true := by simp [samples, hal, hpc]
  -- the id of a stored trial is that of its record
  have hcanon : ∀ id ∈ W.base.ids, ∃ y ∈ H, id = idStr y.key := by
    intro id hid
    obtain ⟨t, ht⟩ := Option.isSome_iff_exists.mp (hall id hid)
    have htm := mem_of_stored J.coh ht
    obtain ⟨y, hy, hry⟩ := (mapM_mem h1).1 t htm
    refine ⟨y, hy, ?_⟩
    have h3 : toSampled t ∈ proposals W := by rw [← L]; exact List.mem_map_of_mem htm
    obtain ⟨z, hz, hzs⟩ := List.mem_map.mp h3
    obtain ⟨-, -, -, -, q', -, -, -, -, -, hq'⟩ := I.asks z hz
    rw [hq'] at hzs
    simp only [sampledOf, toSampled, Sampled.mk.injEq] at hzs
    have hid' := J.coh.names id t (stored_eq_some.mp ht).2
    obtain ⟨r1, -⟩ := recOf_some hry
    rw [show (view t).id = idStr q'.key from hzs.1.symm, parse_idStr] at r1
    simp only [Option.some.injEq, Prod.mk.injEq] at r1
    rw [← hid', ← hzs.1]
    congr 1
    cases hq : q'.key; cases hk : y.key
    simp_all
  have hfresh : idStr p.key ∉ W.base.ids := by
    intro hm
    obtain ⟨y, hy, e⟩ := hcanon _ hm
    exact hkey (List.mem_map.mpr ⟨y, hy, (idStr_inj e).symm⟩)
  have hprep : ∃ loc, prepareSample W.base (sampledOf K p) = some loc := by
    unfold prepareSample
    rw [if_pos]
    · simp only [sampledOf]
      cases hpv : p.prev with
      | none => exact ⟨none, rfl⟩
      | some k =>
        obtain ⟨t0, ht0, c1⟩ := hprev k hpv
        obtain ⟨t, ht, hrt⟩ := (mapM_mem h1).2 t0 ht0
        have hst := stored_of_mem J.coh ht
        have hmem : t.metadata.id ∈ W.base.ids := by
          by_contra hn
          rw [stored_none_of_not_mem J.coh hn] at hst
          simp at hst
        obtain ⟨y, hy, hyk⟩ := hcanon _ hmem
        have : y.key = t0.key := by
          obtain ⟨r1, -⟩ := recOf_some hrt
          rw [show (view t).id = idStr y.key from hyk, parse_idStr] at r1
          simp only [Option.some.injEq, Prod.mk.injEq] at r1
          cases hq : y.key; cases hk : t0.key
          simp_all
        have hid : idStr k = t.metadata.id := by rw [hyk, this, c1]
        obtain ⟨v, hv⟩ := stored_load hst
        simp only [Option.map_some, hid, hmem, if_true, hv]
        exact ⟨_, rfl⟩
    · rw [List.all_eq_true]
      intro id hid
      obtain ⟨t, ht⟩ := Option.isSome_iff_exists.mp (hall id hid)
      obtain ⟨v, hv⟩ := stored_load ht
      simp [hv]
  obtain ⟨loc, hloc⟩ := hprep
  have hids : (act fs st W.base (.step w { c with ask := some (sampledOf K p) })).ids =
      W.base.ids ++ [idStr p.key] := by
    simp only [act, hal, if_true, stepW, hpc, hloc]
    have hfr := J.coh.fresh _ hfresh
    have hfresh' : (sampledOf K p).id ∉ W.base.ids := hfresh
    simp only [hfresh', if_false]
    have hver : (W.base.disk (sampledOf K p).id).ver = none := hfr.1
    simp only [Store.new, hver]
    rfl
  have hne : (act fs st W.base (.step w { c with ask := some (sampledOf K p) })).ids ≠ W.base.ids := by
    rw [hids]
    simp
  obtain ⟨-, -, loc', v, n, hdisk⟩ := act_sample hs hne
  refine ⟨newTrial w (sampledOf K p) loc' c.now, hfresh, hids,
    stored_eq_some.mpr ⟨⟨v, ?_⟩, ?_⟩, rfl, rfl⟩
  · rw [show idStr p.key = (sampledOf K p).id from rfl, hdisk]
  · rw [show idStr p.key = (sampledOf K p).id from rfl, hdisk]

/-- If the optimizers answer, every sampling stores a new trial. -/
theorem sampling_succeeds {K : Codec P F} (hK : K.Faithful) {M : MFParts G E P F}
    {A : AskFn P F → Prop} {budget : Nat → F} (hA : IsMF budget A) (hM : ∀ r, A (M.choose r).1)
    {handled : Prop} (hans : Answers A handled)
    (fs : String → Option PyFloat) (st : Nat → Run.Settings) (r₀ : Rng G) (rng : Nat → Rng G)
    (as : List (SAct G E)) (w : Nat) (c : Choice) (e : E) (noise : Rng G) :
    let W := srun (multiFidelity K M) fs st (start (multiFidelity K M) r₀ rng) as
    let W' := sact (multiFidelity K M) fs st W (.act (.step w c) e noise)
    (∀ id ∈ W.base.ids, (W.base.stored id).isSome) → (W.base.worker w).alive = true →
    (W.base.worker w).pc = .sample → (∀ t ∈ W.base.trials, Failed t → handled) →
    ∃ id t, id ∉ W.base.ids ∧ W'.base.ids = W.base.ids ++ [id] ∧ W'.base.stored id = some t ∧
      t.state = .pending ∧ t.report = none := by
  intro W W' hall hal hpc hfail
  have J : MFInv K A fs W.base := (mfInv_start K M A fs r₀ rng).run (st := st) hK hA hM as
  have I : AskInv K A W :=
    askInv_run hK hA hM ⟨by simp [start], by simp [start]⟩ (mfInv_start K M A fs r₀ rng) as
  have L : W.base.trials.map toSampled = proposals W :=
    C45_trials_are_proposals (multiFidelity K M) fs st r₀ rng as
  obtain ⟨snap, hsnap⟩ := Option.isSome_iff_exists.mp
    (seed_readable (multiFidelity K M) fs st (W := start (multiFidelity K M) r₀ rng)
      (by simp [start, SeedDir.write, SeedDir.read]) as)
  have hs : samples W.base w = true := by simp [samples, hal, hpc]
  obtain ⟨H, h1, h2, -⟩ := J.hist
  obtain ⟨ts, hseen⟩ : ∃ ts, seen W.base c = some ts := by
    refine mapM_total (fun id hid => ?_)
    obtain ⟨t, ht⟩ := Option.isSome_iff_exists.mp (hall id ((listing_perm W.base c).mem_iff.mp hid))
    obtain ⟨v, hv⟩ := stored_load ht
    simp [hv]
  obtain ⟨H', hH', hperm⟩ := mapM_perm (seen_perm hseen) (xs := H) (f := recOf K)
    (by rw [mapM_map]; exact h1)
  set r := snap.setGlobal (W.rng w) with hr
  obtain ⟨p, hp⟩ := hans H H' h2 hperm (by
      intro x hx he
      obtain ⟨t, ht, hrt⟩ := (mapM_mem h1).2 x hx
      exact hfail t ht (failed_of_error hrt he)) (M.choose r).1 (hM r)
    (M.draw H' (M.interleave e) (M.choose r).2).1
  have hprop : ∃ x, propose (multiFidelity K M) W w c e = some x ∧ x.2.1 = sampledOf K p := by
    simp only [propose, hseen, show W.seed.read = some snap from hsnap]
    simp only [← hr, multiFidelity, hH', hp]
    exact ⟨_, rfl, rfl⟩
  obtain ⟨x, hx, hxs⟩ := hprop
  have hkey := (C22_mf_id_fresh hA h2 hperm (hM r) hp).1
  obtain ⟨t, hfresh, hids, hst⟩ := proposal_stored (st := st) J I L hall hal hpc h1 hkey (fun k hpv =>
    (C24_promotion_continues hA h2 hperm (hM r) hp hpv).imp fun t0 ht0 => ⟨ht0.1, ht0.2.1⟩) c
  have hne : (act fs st W.base (.step w { c with ask := some (sampledOf K p) })).ids ≠ W.base.ids := by
    rw [hids]
    simp
  have hW' : W'.base = act fs st W.base (.step w { c with ask := some (sampledOf K p) }) := by
    show (sact (multiFidelity K M) fs st W (.act (.step w c) e noise)).base = _
    simp only [sact, hs, if_true, Seed.sample, hx]
    rw [hxs, if_neg hne]
    rfl
  rw [hW']
  exact ⟨idStr p.key, t, hfresh, hids, hst⟩

/-- **C72 (partial)**: in every run with hyperband, a worker that comes to sample always stores exactly
one new trial, if there are no unreadable trials and no evaluation has failed so far, or failed
evaluations are handled by a loss value.
Missing: failed evaluations that are ignored or raise (`C53_sh_ignore_errors_fails`). -/
theorem C72_hb_sampling_partial {K : Codec P F} (hK : K.Faithful) {M : MFParts G E P F}
    {ms : MF.Settings} {budget : Nat → F} {bs : Nat → Bracket F} {nb : Nat}
    (hbud : ∀ i, i < nb → Agrees (bs i) budget) (hg : ∀ i, i < nb → Good (bs i)) (hnb : 0 < nb)
    (hM : ∀ r, IsHB ms bs nb (M.choose r).1)
    (fs : String → Option PyFloat) (st : Nat → Run.Settings) (r₀ : Rng G) (rng : Nat → Rng G)
    (as : List (SAct G E)) (w : Nat) (c : Choice) (e : E) (noise : Rng G) :
    let W := srun (multiFidelity K M) fs st (start (multiFidelity K M) r₀ rng) as
    let W' := sact (multiFidelity K M) fs st W (.act (.step w c) e noise)
    (∀ id ∈ W.base.ids, (W.base.stored id).isSome) → (W.base.worker w).alive = true →
    (W.base.worker w).pc = .sample → (∀ t ∈ W.base.trials, Failed t →
      ms.ignoreErrors = false ∧ ms.lossOnError ≠ none) →
    ∃ id t, id ∉ W.base.ids ∧ W'.base.ids = W.base.ids ++ [id] ∧ W'.base.stored id = some t ∧
      t.state = .pending ∧ t.report = none :=
  sampling_succeeds hK (.hb ms bs nb hbud hnb) hM
    (fun _ _ hR hp hl _ hf new => C53_hb_answers_partial hbud hg hnb hR hp hf hl new)
    fs st r₀ rng as w c e noise

/-- **C72 (partial)**: the same for asynchronous hyperband. -/
theorem C72_ahb_sampling_partial {K : Codec P F} (hK : K.Faithful) {M : MFParts G E P F}
    {ms : MF.Settings} {budget : Nat → F} {bs : Nat → Bracket F} {nb : Nat}
    (hbud : ∀ i, i < nb → Agrees (bs i) budget) (hnb : 0 < nb)
    (hM : ∀ r, IsAHB ms bs nb (M.choose r).1)
    (fs : String → Option PyFloat) (st : Nat → Run.Settings) (r₀ : Rng G) (rng : Nat → Rng G)
    (as : List (SAct G E)) (w : Nat) (c : Choice) (e : E) (noise : Rng G) :
    let W := srun (multiFidelity K M) fs st (start (multiFidelity K M) r₀ rng) as
    let W' := sact (multiFidelity K M) fs st W (.act (.step w c) e noise)
    (∀ id ∈ W.base.ids, (W.base.stored id).isSome) → (W.base.worker w).alive = true →
    (W.base.worker w).pc = .sample → (∀ t ∈ W.base.trials, Failed t →
      ms.ignoreErrors = false ∧ ms.lossOnError ≠ none) →
    ∃ id t, id ∉ W.base.ids ∧ W'.base.ids = W.base.ids ++ [id] ∧ W'.base.stored id = some t ∧
      t.state = .pending ∧ t.report = none :=
  sampling_succeeds hK (.ahb ms bs nb hbud hnb) hM
    (fun _ _ hR hp hl _ hf new => C53_ahb_answers_partial hbud hnb hR hp hf hl new)
    fs st r₀ rng as w c e noise

/-- **C72 (partial)**: the same for successive halving. -/
theorem C72_sh_sampling_partial {K : Codec P F} (hK : K.Faithful) {M : MFParts G E P F}
    {ms : MF.Settings} {budget : Nat → F} {b : Bracket F} (hbud : Agrees b budget) (hg : Good b)
    (hM : ∀ r, IsSH ms b (M.choose r).1)
    (fs : String → Option PyFloat) (st : Nat → Run.Settings) (r₀ : Rng G) (rng : Nat → Rng G)
    (as : List (SAct G E)) (w : Nat) (c : Choice) (e : E) (noise : Rng G) :
    let W := srun (multiFidelity K M) fs st (start (multiFidelity K M) r₀ rng) as
    let W' := sact (multiFidelity K M) fs st W (.act (.step w c) e noise)
    (∀ id ∈ W.base.ids, (W.base.stored id).isSome) → (W.base.worker w).alive = true →
    (W.base.worker w).pc = .sample → (∀ t ∈ W.base.trials, Failed t →
      ms.ignoreErrors = false ∧ ms.lossOnError ≠ none) →
    ∃ id t, id ∉ W.base.ids ∧ W'.base.ids = W.base.ids ++ [id] ∧ W'.base.stored id = some t ∧
      t.state = .pending ∧ t.report = none :=
  sampling_succeeds hK (.sh ms b hbud) hM
    (fun _ _ hR hp hl _ hf new => C53_sh_answers_partial hbud hg hR hp hf hl new)
    fs st r₀ rng as w c e noise

/-- **C72 (partial)**: the same for ASHA without early stopping.
Missing also: an early stopping rate (`C53_asha_early_stopping_fails`). -/
theorem C72_asha_sampling_partial {K : Codec P F} (hK : K.Faithful) {M : MFParts G E P F}
    {ms : MF.Settings} {budget : Nat → F} {b : Bracket F} (hbud : Agrees b budget) (hmin : b.minR = 0)
    (hM : ∀ r, IsASHA ms b (M.choose r).1)
    (fs : String → Option PyFloat) (st : Nat → Run.Settings) (r₀ : Rng G) (rng : Nat → Rng G)
    (as : List (SAct G E)) (w : Nat) (c : Choice) (e : E) (noise : Rng G) :
    let W := srun (multiFidelity K M) fs st (start (multiFidelity K M) r₀ rng) as
    let W' := sact (multiFidelity K M) fs st W (.act (.step w c) e noise)
    (∀ id ∈ W.base.ids, (W.base.stored id).isSome) → (W.base.worker w).alive = true →
    (W.base.worker w).pc = .sample → (∀ t ∈ W.base.trials, Failed t →
      ms.ignoreErrors = false ∧ ms.lossOnError ≠ none) →
    ∃ id t, id ∉ W.base.ids ∧ W'.base.ids = W.base.ids ++ [id] ∧ W'.base.stored id = some t ∧
      t.state = .pending ∧ t.report = none :=
  sampling_succeeds hK (.asha ms b hbud) hM
    (fun _ _ hR hp hl _ hf new => C53_asha_answers_partial hbud hmin hR hp hf hl new)
    fs st r₀ rng as w c e noise

/-! ## The example run -/

/-- Two hyperparameters, a learning rate and the fidelity, for examples. -/
def demoCodec : Codec Nat Nat where
  enc p f := [("lr", .int p), ("epochs", .int f)]
  dec c := match c with
    | [("lr", .int p), ("epochs", .int f)] => some (p.toNat, f.toNat)
    | _ => none

theorem demoCodec_faithful : demoCodec.Faithful := by
  intro p f
  simp [demoCodec]

/-- Hyperband with two rungs; new configurations come from numpy's generator, those of an interleaved
uniform draw from python's. -/
def demoParts (coin : E → Bool) : MFParts Nat E Nat Nat where
  choose r := (hbAsk { lossOnError := some (.num 1) } twoRungs 2 argsort, r)
  draw _ i r := if i then (r.py, { r with py := r.py + 1 }) else (r.np, { r with np := r.np + 1 })
  interleave := coin

theorem demoParts_hb (coin : E → Bool) (r : Rng Nat) :
    IsHB { lossOnError := some (.num 1) } twoRungs 2 ((demoParts coin).choose r).1 :=
  ⟨_, argsort_sorts, rfl⟩

set_option maxRecDepth 8000 in
/-- The hypotheses of the theorems are met: a run in which worker 0 samples and evaluates two
configurations and is killed and worker 1 promotes the first of them. -/
example :
    let A := multiFidelity demoCodec (demoParts (fun _ : Unit => false))
    let as : List (SAct Nat Unit) :=
      steps 0 17 () (gens 50) ++ [.act (.kill 0) () (gens 0)] ++ steps 1 6 () (gens 60)
    let W := srun A (fun _ => none) (fun _ => plain) (start A (gens 7) (fun w => gens (100 * w))) as
    (∀ i, i < 2 → Good (twoRungs i)) ∧ (∀ i, i < 2 → Agrees (twoRungs i) (fun r => r + 1)) ∧
    (∀ c ∈ claims W.base.log, c.2.2.state = .pending) ∧
    W.base.trials.map (fun t => (t.metadata.id, t.config, t.metadata.previousTrialId)) =
      [("0_0", [("lr", .int 7), ("epochs", .int 1)], none),
       ("1_0", [("lr", .int 8), ("epochs", .int 1)], none),
       ("0_1", [("lr", .int 7), ("epochs", .int 2)], some "0_0")] := by
  refine ⟨twoRungs_good, twoRungs_agree, by decide +kernel, by decide +kernel⟩

/-! ## C45 for the multi-fidelity optimizers -/

/-- The trials an `ask` sees are a history of `A`. -/
def SeesHistory (K : Codec P F) (A : AskFn P F → Prop) (ts : List View) : Prop :=
  ∃ H H', ts.mapM (recOf K) = some H' ∧ H'.Perm H ∧ Reach A H

theorem multiFidelity_independent (K : Codec P F) {M : MFParts G E P F} {A : AskFn P F → Prop}
    {budget : Nat → F} (hA : IsMF budget A) (hM : ∀ r, A (M.choose r).1)
    (hi : ∀ e e', M.interleave e = M.interleave e')
    (hdo : ∀ H H', H.Perm H' → M.draw H = M.draw H') :
    Independent (multiFidelity K M) (SeesHistory K A) := by
  intro o o' e e' ts ts' b r hV hp
  obtain ⟨H, H', h1, h2, h3⟩ := hV
  obtain ⟨H'', h4, h5⟩ := mapM_perm hp h1
  have he : M.draw H'' = M.draw H' := hdo _ _ h5
  have hf : ∀ new, (M.choose r).1 H'' new = (M.choose r).1 H' new := by
    intro new
    rw [C28_ask_order hA h3 (h5.trans h2) (hM r), C28_ask_order hA h3 h2 (hM r)]
  simp only [multiFidelity, h1, h4, he, hf, hi e' e]

theorem multiFidelity_keepsHost (K : Codec P F) {M : MFParts G E P F}
    (hc : ∀ r, (M.choose r).2.cuda.isSome = r.cuda.isSome)
    (hd : ∀ a b r, (M.draw a b r).2.cuda.isSome = r.cuda.isSome) : KeepsHost (multiFidelity K M) := by
  intro o e ts b r s o' r' h
  obtain ⟨H, p, -, -, -, rfl⟩ := multiFidelity_some h
  split
  · exact hc r
  · rw [hd, hc]

/-- **C45** for successive halving, hyperband and their asynchronous versions without random
interleaving, if new configurations do not depend on the order of the trials: in every execution
without kills inside a sampling the proposals are those of a single
process that sees the same trials and whose generators nobody else touches. -/
theorem C45_multi_fidelity {K : Codec P F} (hK : K.Faithful) {M : MFParts G E P F}
    {A : AskFn P F → Prop} {budget : Nat → F} (hA : IsMF budget A) (hM : ∀ r, A (M.choose r).1)
    (hi : ∀ e, M.interleave e = false) (hdo : ∀ H H', H.Perm H' → M.draw H = M.draw H')
    (hc : ∀ r, (M.choose r).2.cuda.isSome = r.cuda.isSome)
    (hd : ∀ a b r, (M.draw a b r).2.cuda.isSome = r.cuda.isSome)
    (fs : String → Option PyFloat) (st : Nat → Run.Settings) (r₀ : Rng G) (rng : Nat → Rng G)
    (hh : SameHosts r₀ rng) (as : List (SAct G E)) (has : ∀ a ∈ as, a.clean = true) :
    let W := srun (multiFidelity K M) fs st (start (multiFidelity K M) r₀ rng) as
    proposals W = replay (multiFidelity K M) () r₀ (histories W) := by
  refine C45_resume_partial _ (SeesHistory K A)
    (multiFidelity_independent K hA hM (fun e e' => by rw [hi, hi]) hdo)
    (multiFidelity_keepsHost K hc hd) fs st r₀ rng hh as has ?_
  intro h hh
  have I : AskInv K A (srun (multiFidelity K M) fs st (start (multiFidelity K M) r₀ rng) as) :=
    askInv_run hK hA hM ⟨by simp [start], by simp [start]⟩ (mfInv_start K M A fs r₀ rng) as
  obtain ⟨x, hx, rfl⟩ := List.mem_map.mp hh
  obtain ⟨H, H', -, -, -, h1, h2, -, h3, -⟩ := I.asks x hx
  exact ⟨H, H', h3, h2, h1⟩

set_option maxRecDepth 8000 in
/-- **C45 fails** with random interleaving: the coin is not seeded (`successive_halving.py:424`). -/
theorem C45_interleave_fails :
    ¬ Reproducible (multiFidelity demoCodec (demoParts (fun e : Bool => e))) SAct.clean := by
  intro h
  have := h ⟨0, 5, 0, none⟩ (fun _ => gens 0) (fun _ => gens 0) (fun _ => none) (fun _ => plain)
    (fun _ => plain) (steps 0 4 true (gens 0)) (steps 0 4 false (gens 0)) (fun _ => rfl)
    (fun _ => rfl) (by decide) (by decide) (SameHistories.of_eq (by decide +kernel))
  revert this
  decide +kernel

end Neps.Seed
