import Verif.Seed.ReadRun
import Mathlib.Data.List.Induction

/-!
# C144: sampling while the other workers go on
-/

namespace Neps.Seed

open Neps.Run Neps.MF
open Neps.Store (Disk Handle)

variable {G O E P F : Type}

/-- **C144**: reading the trials one after the other without anybody else in between is the one step
of `Verif.Seed.Model`. -/
theorem C144_atomic (A : Optimizer G O E) (fs : String → Option PyFloat) (st : Nat → Run.Settings)
    (W : SWorld G O E) (w : Nat) (c : Choice) (e : E) (noise : Rng G)
    (hs : (W.base.worker w).alive = true ∧ (W.base.worker w).pc = .sample) :
    rrun A fs st ⟨W, none⟩
        ([.lock w c] ++ List.replicate W.base.ids.length (.read c) ++ [.ask c e .stored]) =
      ⟨sact A fs st W (.act (.step w c) e noise), none⟩ := by
  have hs : samples W.base w = true := by simp [samples, hs.1, hs.2]
  have h1 : ract A fs st ⟨W, none⟩ (.lock w c) = ⟨W, some ⟨w, listing W.base c, []⟩⟩ := by
    simp [ract, hs]
  have hl : rrun A fs st ⟨W, none⟩
      ([.lock w c] ++ List.replicate W.base.ids.length (.read c) ++ [.ask c e .stored]) =
      ract A fs st (rrun A fs st ⟨W, some ⟨w, listing W.base c, []⟩⟩
        (List.replicate (listing W.base c).length (.read c))) (.ask c e .stored) := by
    rw [rrun_snoc, listing_length, ← h1]
    rfl
  rw [hl]
  simp only [sact, hs, if_true]
  cases hseen : (listing W.base c).mapM (loadView W.base) with
  | none => rw [reads_fail hseen, sample_of_unseen (by rw [seen_eq]; exact hseen)]; rfl
  | some vs =>
    rw [reads_all hseen, sample_of_seen (ts := vs) (by rw [seen_eq]; exact hseen)]
    simp [ract]

/-- **C144**: what happens to the shared directory and to the workers is an execution of the worker
transition system. All theorems about these executions (`Verif.Run`) hold. -/
theorem C144_runs (A : Optimizer G O E) (fs : String → Option PyFloat) (st : Nat → Run.Settings)
    (r₀ : Rng G) (rng : Nat → Rng G) (as : List (RAct G E)) :
    ∃ bs : List Act, (rrun A fs st (rstart A r₀ rng) as).main.base = run fs st {} bs := by
  induction as using List.reverseRecOn with
  | nil => exact ⟨[], rfl⟩
  | append_singleton as a ih =>
    obtain ⟨bs, hb⟩ := ih
    rw [rrun_snoc]
    generalize rrun A fs st (rstart A r₀ rng) as = W at hb
    have key : ∀ cs : List Act, ∃ bs' : List Act, run fs st W.main.base cs = run fs st {} bs' :=
      fun cs => ⟨bs ++ cs, by rw [hb]; simp [run]⟩
    cases a with
    | step w c noise =>
      simp only [ract]
      split
      · exact ⟨bs, hb⟩
      · exact key [.step w c]
    | kill w => exact key [.kill w]
    | lock w c =>
      simp only [ract]
      split <;> exact ⟨bs, hb⟩
    | read c =>
      simp only [ract]
      split
      · next w id todo got hR =>
        split
        · exact ⟨bs, hb⟩
        · exact key [.step w { c with ask := none }]
      · exact ⟨bs, hb⟩
    | ask c e how =>
      simp only [ract]
      split
      · next w got hR =>
        cases how with
        | stored =>
          obtain ⟨cs, hc⟩ := sampleFrom_base A fs st W.main w c e got false
          simp only [hc]
          exact key cs
        | beforeSeed =>
          obtain ⟨cs, hc⟩ := sampleFrom_base A fs st W.main w c e got true
          simp only [hc]
          exact key cs
        | creating torn => exact key [.killCreating w _ torn]
      · exact ⟨bs, hb⟩

/-- What a reader has read was stored while it held the locks. -/
theorem got_times (A : Optimizer G O E) (fs : String → Option PyFloat) (st : Nat → Run.Settings)
    (r₀ : Rng G) (rng : Nat → Rng G) (as : List (RAct G E)) (R : Reading)
    (hR : (rrun A fs st (rstart A r₀ rng) as).reading = some R) (v : View) (hv : v ∈ R.got) :
    ∃ bs cs t, as = bs ++ cs ∧
      (rrun A fs st (rstart A r₀ rng) bs).main.base.stored v.id = some t ∧ v = view t ∧
      ∀ ds, ds <+: cs → ∃ R', (rrun A fs st (rstart A r₀ rng) (bs ++ ds)).reading = some R' ∧
        R'.worker = R.worker := by
  induction as using List.reverseRecOn generalizing R with
  | nil => simp [rrun, rstart] at hR
  | append_singleton as a ih =>
    have hR' := hR
    rw [rrun_snoc] at hR
    have ext : ∀ (bs cs : List (RAct G E)) (w : Nat), as = bs ++ cs → w = R.worker →
        (∀ ds, ds <+: cs → ∃ R', (rrun A fs st (rstart A r₀ rng) (bs ++ ds)).reading = some R' ∧
          R'.worker = w) →
        ∀ ds, ds <+: cs ++ [a] →
          ∃ R', (rrun A fs st (rstart A r₀ rng) (bs ++ ds)).reading = some R' ∧
            R'.worker = R.worker := by
      intro bs cs w h1 hw h2 ds hds
      subst hw
      rcases List.prefix_concat_iff.mp hds with rfl | hds
      · exact ⟨R, by rw [← List.append_assoc, ← h1]; exact hR', rfl⟩
      · exact h2 ds hds
    rcases reading_act hR with h | h | ⟨id, t, R₀, hd, h1, h2, h3, h4, h5⟩
    · rw [h] at hv
      simp at hv
    · obtain ⟨bs, cs, t, e1, e2, e3, e4⟩ := ih R h hv
      exact ⟨bs, cs ++ [a], t, by simp [e1], e2, e3, ext bs cs R.worker e1 rfl e4⟩
    · rw [h3] at hv
      rcases List.mem_append.mp hv with hv | hv
      · obtain ⟨bs, cs, t', e1, e2, e3, e4⟩ := ih R₀ h1 hv
        exact ⟨bs, cs ++ [a], t', by simp [e1], e2, e3, ext bs cs R₀.worker e1 h2 e4⟩
      · simp only [List.mem_singleton] at hv
        subst hv
        have C := ((held_start A fs r₀ rng).run (A := A) (st := st) as).coh
        subst h5
        refine ⟨as, [a], hd.cur, rfl, by rw [load_view C h4]; exact load_stored h4, rfl, ?_⟩
        refine ext as [] R₀.worker (by simp) h2 ?_
        intro ds hds
        rw [List.prefix_nil.mp hds, List.append_nil]
        exact ⟨R₀, h1, rfl⟩

/-- How an ask comes about. -/
theorem asked_act {A : Optimizer G O E} {fs st} {W : RWorld G O E} {a : RAct G E} :
    (ract A fs st W a).main.asked = W.main.asked ∨
    ∃ R x, W.reading = some R ∧ R.todo = [] ∧ x.1.2.1 = R.got ∧
      (ract A fs st W a).main.asked = W.main.asked ++ [x] := by
  have key : ∀ w c e got d, (sampleFrom A fs st W.main w c e got d).asked = W.main.asked ∨
      ∃ x : (E × List View × PyFloat) × Sampled, x.1.2.1 = got ∧
        (sampleFrom A fs st W.main w c e got d).asked = W.main.asked ++ [x] := by
    intro w c e got d
    unfold sampleFrom
    split
    · exact Or.inl rfl
    · next h s o r hp =>
      simp only
      split
      · exact Or.inl rfl
      · obtain ⟨-, -, rfl, -⟩ := proposeFrom_some hp
        exact Or.inr ⟨_, rfl, rfl⟩
  cases a with
  | step w c noise => simp only [ract]; split <;> exact Or.inl rfl
  | kill w => exact Or.inl rfl
  | lock w c => simp only [ract]; split <;> exact Or.inl rfl
  | read c =>
    simp only [ract]
    split
    · split <;> exact Or.inl rfl
    · exact Or.inl rfl
  | ask c e how =>
    simp only [ract]
    split
    · next w got hR =>
      cases how with
      | stored => exact (key w c e got false).imp id (fun ⟨x, h1, h2⟩ => ⟨_, x, hR, rfl, h1, h2⟩)
      | beforeSeed => exact (key w c e got true).imp id (fun ⟨x, h1, h2⟩ => ⟨_, x, hR, rfl, h1, h2⟩)
      | creating torn => exact Or.inl rfl
    · exact Or.inl rfl

/-- **C144**: whatever the schedule and wherever workers are killed, an optimizer is asked with every
trial that is stored when it is asked, each once, and each as it was stored at some moment since the
worker took the lock of the optimizer state, which it has held from then on. -/
theorem C144_seen (A : Optimizer G O E) (fs : String → Option PyFloat) (st : Nat → Run.Settings)
    (r₀ : Rng G) (rng : Nat → Rng G) (as : List (RAct G E)) :
    let after := fun l => rrun A fs st (rstart A r₀ rng) l
    ∀ x ∈ (after as).main.asked, ∃ as₁ as₂ w, as = as₁ ++ as₂ ∧
      (x.1.2.1.map (·.id)).Perm (after as₁).main.base.ids ∧
      ∀ v ∈ x.1.2.1, ∃ bs cs t, as₁ = bs ++ cs ∧ (after bs).main.base.stored v.id = some t ∧
        v = view t ∧
        ∀ ds, ds <+: cs → ∃ R, (after (bs ++ ds)).reading = some R ∧ R.worker = w := by
  intro after x hx
  induction as using List.reverseRecOn with
  | nil => simp [after, rrun, rstart, start] at hx
  | append_singleton as a ih =>
    simp only [after, rrun_snoc] at hx
    rcases asked_act (A := A) (fs := fs) (st := st) (W := rrun A fs st (rstart A r₀ rng) as) (a := a)
      with h | ⟨R, y, h1, h2, h3, h4⟩
    · rw [h] at hx
      obtain ⟨as₁, as₂, w, e1, e2⟩ := ih hx
      exact ⟨as₁, as₂ ++ [a], w, by simp [e1], e2⟩
    · rw [h4] at hx
      rcases List.mem_append.mp hx with hx | hx
      · obtain ⟨as₁, as₂, w, e1, e2⟩ := ih hx
        exact ⟨as₁, as₂ ++ [a], w, by simp [e1], e2⟩
      · simp only [List.mem_singleton] at hx
        subst hx
        refine ⟨as, [a], R.worker, rfl, ?_, ?_⟩
        · have := ((held_start A fs r₀ rng).run (A := A) (st := st) as).all R h1
          rw [h3]
          simpa [h2] using this
        · rw [h3]
          exact fun v hv => got_times A fs st r₀ rng as R h1 v hv

/-- **C144**: whatever the schedule of the workers, also while one of them reads the trials, and
wherever they are killed, the stored trials are a history of the multi-fidelity optimizer (see
`C72_histories`). -/
theorem C144_histories {K : Codec P F} (hK : K.Faithful) {M : MFParts G E P F} {A : AskFn P F → Prop}
    {budget : Nat → F} (hA : IsMF budget A) (hM : ∀ r, A (M.choose r).1)
    (fs : String → Option PyFloat) (st : Nat → Run.Settings) (r₀ : Rng G) (rng : Nat → Rng G)
    (as : List (RAct G E)) :
    let W := (rrun (multiFidelity K M) fs st (rstart (multiFidelity K M) r₀ rng) as).main.base
    ∃ H, readAll K W = some H ∧ Reach A H ∧
      ((∀ c ∈ claims W.log, c.2.2.state = .pending) → ReachOnce A H) :=
  ((rInv_start K M A fs r₀ rng).run hK hA hM as).mf.hist

/-- **C144**: the trials an optimizer is asked with are a history, too, although they need not have
been stored at the same time (`C144_snapshot_fails`). -/
theorem C144_asked_history {K : Codec P F} (hK : K.Faithful) {M : MFParts G E P F}
    {A : AskFn P F → Prop} {budget : Nat → F} (hA : IsMF budget A) (hM : ∀ r, A (M.choose r).1)
    (fs : String → Option PyFloat) (st : Nat → Run.Settings) (r₀ : Rng G) (rng : Nat → Rng G)
    (as : List (RAct G E)) :
    ∀ x ∈ (rrun (multiFidelity K M) fs st (rstart (multiFidelity K M) r₀ rng) as).main.asked,
      ∃ H H', x.1.2.1.mapM (recOf K) = some H' ∧ H'.Perm H ∧ Reach A H := by
  intro x hx
  obtain ⟨H, H', -, -, -, h1, h2, -, h3, -⟩ :=
    ((rInv_start K M A fs r₀ rng).run (st := st) hK hA hM as).asks.asks x hx
  exact ⟨H, H', h3, h2, h1⟩

/-- **C144**: `C72_continuation` with readings that interleave. -/
theorem C144_continuation {K : Codec P F} (hK : K.Faithful) {M : MFParts G E P F}
    {A : AskFn P F → Prop} {budget : Nat → F} (hA : IsMF budget A) (hM : ∀ r, A (M.choose r).1)
    (fs : String → Option PyFloat) (st : Nat → Run.Settings) (r₀ : Rng G) (rng : Nat → Rng G)
    (as : List (RAct G E)) :
    let W := (rrun (multiFidelity K M) fs st (rstart (multiFidelity K M) r₀ rng) as).main.base
    ∀ id t p, W.stored id = some t → t.metadata.previousTrialId = some p →
      ∃ t' c r hp, W.stored p = some t' ∧ t'.report.isSome ∧
        p = String.ofList (Ids.fmtId c r) ∧ id = String.ofList (Ids.fmtId c (r + 1)) ∧
        t'.config = K.enc hp (budget r) ∧ t.config = K.enc hp (budget (r + 1)) := by
  intro W
  have I := (rInv_start K M A fs r₀ rng).run (st := st) hK hA hM as
  exact continuation_of hK hA I.mf I.asks
    (logEq_rrun (held_start _ fs r₀ rng) (logEq_start _ fs r₀ rng) as).eq

/-- **C144**: `C72_numbering` with readings that interleave. -/
theorem C144_numbering {K : Codec P F} (hK : K.Faithful) {M : MFParts G E P F}
    {A : AskFn P F → Prop} {budget : Nat → F} (hA : IsMF budget A) (hM : ∀ r, A (M.choose r).1)
    (fs : String → Option PyFloat) (st : Nat → Run.Settings) (r₀ : Rng G) (rng : Nat → Rng G)
    (as : List (RAct G E)) :
    let W := (rrun (multiFidelity K M) fs st (rstart (multiFidelity K M) r₀ rng) as).main.base
    ∃ n, ∀ c, (∃ r t, W.stored (String.ofList (Ids.fmtId c r)) = some t) ↔ c < n := by
  intro W
  have I := (rInv_start K M A fs r₀ rng).run (st := st) hK hA hM as
  exact numbering_of hA I.mf I.asks
    (logEq_rrun (held_start _ fs r₀ rng) (logEq_start _ fs r₀ rng) as).eq

/-- **C144**: `C72_quota` with readings that interleave. -/
theorem C144_quota {K : Codec P F} (hK : K.Faithful) {M : MFParts G E P F} {ms : MF.Settings}
    {budget : Nat → F} {bs : Nat → Bracket F} {nb : Nat} (hbud : ∀ i, i < nb → Agrees (bs i) budget)
    (hg : ∀ i, i < nb → Good (bs i)) (hnb : 0 < nb) (hM : ∀ r, IsHB ms bs nb (M.choose r).1)
    (fs : String → Option PyFloat) (st : Nat → Run.Settings) (r₀ : Rng G) (rng : Nat → Rng G)
    (as : List (RAct G E)) :
    let W := (rrun (multiFidelity K M) fs st (rstart (multiFidelity K M) r₀ rng) as).main.base
    ∃ H, readAll K W = some H ∧ ∀ k r, (bs (k % nb)).minR ≤ r → r ≤ (bs (k % nb)).maxR →
      evaluatedAt H (sliceStart bs nb ms.offset k) (bs (k % nb)).size r ≤ (bs (k % nb)).cap r := by
  intro W
  obtain ⟨H, h1, h2, -⟩ := C144_histories hK (.hb ms bs nb hbud hnb) hM fs st r₀ rng as
  exact ⟨H, h1, fun k r a b => (C23_sync_quota hbud hg hnb h2 k r a b).1⟩

/-- **C144**: `C72_best` with readings that interleave. -/
theorem C144_best {K : Codec P F} (hK : K.Faithful) {M : MFParts G E P F} {ms : MF.Settings}
    {budget : Nat → F} {bs : Nat → Bracket F} {nb : Nat} (hbud : ∀ i, i < nb → Agrees (bs i) budget)
    (hg : ∀ i, i < nb → Good (bs i)) (hnb : 0 < nb) (hM : ∀ r, IsHB ms bs nb (M.choose r).1)
    (fs : String → Option PyFloat) (st : Nat → Run.Settings) (r₀ : Rng G) (rng : Nat → Rng G)
    (as : List (RAct G E)) :
    let W := (rrun (multiFidelity K M) fs st (rstart (multiFidelity K M) r₀ rng) as).main.base
    (∀ c ∈ claims W.log, c.2.2.state = .pending) →
    ∃ H, readAll K W = some H ∧ ∀ k, ∀ t ∈ H, ∀ t' ∈ H, t.key.rung = t'.key.rung →
      InSlice (sliceStart bs nb ms.offset k) (bs (k % nb)).size t →
      InSlice (sliceStart bs nb ms.offset k) (bs (k % nb)).size t' →
      ¬ Unpromoted H t → Unpromoted H t' →
      evaluatedAt H (sliceStart bs nb ms.offset k) (bs (k % nb)).size t.key.rung
        = (bs (k % nb)).cap t.key.rung ∧
      ∃ x x', lossOf ms t = some x ∧ lossOf ms t' = some x' ∧ PyFloat.le x x' = true := by
  intro W hc
  obtain ⟨H, h1, -, h3⟩ := C144_histories hK (.hb ms bs nb hbud hnb) hM fs st r₀ rng as
  exact ⟨H, h1, fun k t ht t' ht' hr i1 i2 i3 i4 =>
    C23_sync_best hbud hg hnb (h3 hc) ht ht' hr i1 i2 i3 i4⟩

/-! ## Sampling succeeds -/

theorem rseed_readable (A : Optimizer G O E) (fs : String → Option PyFloat) (st : Nat → Run.Settings)
    {W : RWorld G O E} (h : W.main.seed.read.isSome) (as : List (RAct G E)) :
    (rrun A fs st W as).main.seed.read.isSome := by
  have hs : ∀ (W : SWorld G O E) w c e ts d, W.seed.read.isSome →
      (sampleFrom A fs st W w c e ts d).seed.read.isSome := by
    intro W w c e ts d h
    unfold Seed.sampleFrom
    split
    · exact h
    · simp only
      split
      · exact h
      · cases d with
        | true => exact h
        | false => simp [SeedDir.write, SeedDir.read]
  induction as generalizing W with
  | nil => exact h
  | cons a as ih =>
    apply ih
    cases a with
    | step w c noise => simp only [ract]; split <;> exact h
    | kill w => exact h
    | lock w c => simp only [ract]; split <;> exact h
    | read c =>
      simp only [ract]
      split
      · split <;> exact h
      · exact h
    | ask c e how =>
      simp only [ract]
      split
      · cases how with
        | stored => exact hs _ _ _ _ _ _ h
        | beforeSeed => exact hs _ _ _ _ _ _ h
        | creating torn => exact h
      · exact h

/-- What was read is a trial whose evaluation failed or crashed. -/
def View.Failed (v : View) : Prop := ∃ r, v.result = some r ∧ r.1 ≠ .success

theorem view_failed_of_error {K : Codec P F} {v : View} {x : Rec P F} (h : recOf K v = some x)
    (he : x.res = .error) : v.Failed := by
  obtain ⟨-, -, h3⟩ := recOf_some h
  rw [he] at h3
  cases hr : v.result with
  | none => simp [hr, resOf] at h3
  | some r =>
    refine ⟨r, hr, fun hs => ?_⟩
    obtain ⟨a, l, b⟩ := r
    simp only at hs
    subst hs
    cases l <;> simp [hr, resOf] at h3

/-- If the optimizers answer, every sampling that has read the trials stores a new trial. -/
theorem rsampling_succeeds {K : Codec P F} (hK : K.Faithful) {M : MFParts G E P F}
    {A : AskFn P F → Prop} {budget : Nat → F} (hA : IsMF budget A) (hM : ∀ r, A (M.choose r).1)
    {handled : Prop} (hans : Answers A handled)
    (fs : String → Option PyFloat) (st : Nat → Run.Settings) (r₀ : Rng G) (rng : Nat → Rng G)
    (as : List (RAct G E)) (c : Choice) (e : E) :
    let W := rrun (multiFidelity K M) fs st (rstart (multiFidelity K M) r₀ rng) as
    let W' := ract (multiFidelity K M) fs st W (.ask c e .stored)
    ∀ R, W.reading = some R → R.todo = [] → (∀ v ∈ R.got, v.Failed → handled) →
    ∃ id t, id ∉ W.main.base.ids ∧ W'.main.base.ids = W.main.base.ids ++ [id] ∧
      W'.main.base.stored id = some t ∧ t.state = .pending ∧ t.report = none := by
  intro W W' R hR htodo hfail
  obtain ⟨w, todo, got⟩ := R
  simp only at htodo hfail
  subst htodo
  have I : RInv K A fs W := (rInv_start K M A fs r₀ rng).run (st := st) hK hA hM as
  have L : W.main.base.trials.map toSampled = proposals W.main :=
    (logEq_rrun (held_start _ fs r₀ rng) (logEq_start _ fs r₀ rng) as).eq
  obtain ⟨snap, hsnap⟩ := Option.isSome_iff_exists.mp
    (rseed_readable (multiFidelity K M) fs st (W := rstart (multiFidelity K M) r₀ rng)
      (by simp [rstart, start, SeedDir.write, SeedDir.read]) as)
  have hs := I.held.holder _ hR
  simp only [samples, Bool.and_eq_true, beq_iff_eq] at hs
  obtain ⟨vs, Hm, m1, m2, m3, -, m5⟩ := I.mix _ hR
  have hall : ∀ id ∈ W.main.base.ids, (W.main.base.stored id).isSome := by
    intro id hid
    have := (I.held.all _ hR).mem_iff.mpr hid
    simp only [List.append_nil, List.mem_map] at this
    obtain ⟨v, hv, rfl⟩ := this
    obtain ⟨t, ht, hb⟩ := forall₂_mem m1 (m5 v hv)
    rw [hb.1, stored_of_mem I.mf.coh ht]
    rfl
  obtain ⟨H', hH', hperm⟩ := mapM_perm (read_perm I.mf.coh m1 (I.held.all _ hR) m5)
    (xs := Hm) (f := recOf K) m2
  obtain ⟨H, i1, -, -⟩ := I.mf.hist
  obtain ⟨l1, -⟩ := forall₂_recs m1 i1 m2
  have hkeys : H.map (·.key) = Hm.map (·.key) := by
    clear hperm m2 m3 i1
    induction l1 with
    | nil => rfl
    | @cons x y Hm H h1 h2 ih =>
      simp only [List.map_cons]
      rw [ih]
      rcases h1 with rfl | ⟨-, h⟩
      · rfl
      · rw [h]
  obtain ⟨p, hp⟩ := hans Hm H' m3 hperm (by
      intro x hx he
      obtain ⟨v, hv, hrv⟩ := (mapM_mem hH').2 x (hperm.mem_iff.mpr hx)
      exact hfail v hv (view_failed_of_error hrv he)) (M.choose (snap.setGlobal (W.main.rng w))).1 (hM _)
    (M.draw H' (M.interleave e) (M.choose (snap.setGlobal (W.main.rng w))).2).1
  have hprop : ∃ x, proposeFrom (multiFidelity K M) W.main w got e = some x ∧ x.2.1 = sampledOf K p := by
    simp only [proposeFrom, show W.main.seed.read = some snap from hsnap]
    simp only [multiFidelity, hH', hp]
    exact ⟨_, rfl, rfl⟩
  obtain ⟨x, hx, hxs⟩ := hprop
  have hkey := (C22_mf_id_fresh hA m3 hperm (hM _) hp).1
  obtain ⟨t, hfresh, hids, hst⟩ := proposal_stored (st := st) I.mf I.asks L hall hs.1 hs.2 i1
    (by rw [hkeys]; exact hkey) (fun k hpv => by
      obtain ⟨t0, ht0, c1, -⟩ := C24_promotion_continues hA m3 hperm (hM _) hp hpv
      have : k ∈ H.map (·.key) := by rw [hkeys]; exact List.mem_map.mpr ⟨t0, ht0, c1⟩
      exact List.mem_map.mp this) c
  have hne : (act fs st W.main.base (.step w { c with ask := some (sampledOf K p) })).ids ≠
      W.main.base.ids := by
    rw [hids]
    simp
  have hW' : W'.main.base = act fs st W.main.base (.step w { c with ask := some (sampledOf K p) }) := by
    show (ract (multiFidelity K M) fs st W (.ask c e .stored)).main.base = _
    simp only [ract, hR, Seed.sampleFrom, hx]
    rw [hxs, if_neg hne]
    rfl
  rw [hW']
  exact ⟨idStr p.key, t, hfresh, hids, hst⟩

/-- **C144 (partial)**: in every run with hyperband, a worker that has read the trials stores exactly one
new trial, whatever the others did meanwhile, if it has read no failed evaluation or they are handled by
a loss value.
Missing: failed evaluations that are ignored or raise (`C53_sh_ignore_errors_fails`). -/
theorem C144_hb_sampling_partial {K : Codec P F} (hK : K.Faithful) {M : MFParts G E P F}
    {ms : MF.Settings} {budget : Nat → F} {bs : Nat → Bracket F} {nb : Nat}
    (hbud : ∀ i, i < nb → Agrees (bs i) budget) (hg : ∀ i, i < nb → Good (bs i)) (hnb : 0 < nb)
    (hM : ∀ r, IsHB ms bs nb (M.choose r).1)
    (fs : String → Option PyFloat) (st : Nat → Run.Settings) (r₀ : Rng G) (rng : Nat → Rng G)
    (as : List (RAct G E)) (c : Choice) (e : E) :
    let W := rrun (multiFidelity K M) fs st (rstart (multiFidelity K M) r₀ rng) as
    let W' := ract (multiFidelity K M) fs st W (.ask c e .stored)
    ∀ R, W.reading = some R → R.todo = [] → (∀ v ∈ R.got, v.Failed →
      ms.ignoreErrors = false ∧ ms.lossOnError ≠ none) →
    ∃ id t, id ∉ W.main.base.ids ∧ W'.main.base.ids = W.main.base.ids ++ [id] ∧
      W'.main.base.stored id = some t ∧ t.state = .pending ∧ t.report = none :=
  rsampling_succeeds hK (.hb ms bs nb hbud hnb) hM
    (fun _ _ hR hp hl _ hf new => C53_hb_answers_partial hbud hg hnb hR hp hf hl new)
    fs st r₀ rng as c e

/-- **C144 (partial)**: the same for asynchronous hyperband. -/
theorem C144_ahb_sampling_partial {K : Codec P F} (hK : K.Faithful) {M : MFParts G E P F}
    {ms : MF.Settings} {budget : Nat → F} {bs : Nat → Bracket F} {nb : Nat}
    (hbud : ∀ i, i < nb → Agrees (bs i) budget) (hnb : 0 < nb)
    (hM : ∀ r, IsAHB ms bs nb (M.choose r).1)
    (fs : String → Option PyFloat) (st : Nat → Run.Settings) (r₀ : Rng G) (rng : Nat → Rng G)
    (as : List (RAct G E)) (c : Choice) (e : E) :
    let W := rrun (multiFidelity K M) fs st (rstart (multiFidelity K M) r₀ rng) as
    let W' := ract (multiFidelity K M) fs st W (.ask c e .stored)
    ∀ R, W.reading = some R → R.todo = [] → (∀ v ∈ R.got, v.Failed →
      ms.ignoreErrors = false ∧ ms.lossOnError ≠ none) →
    ∃ id t, id ∉ W.main.base.ids ∧ W'.main.base.ids = W.main.base.ids ++ [id] ∧
      W'.main.base.stored id = some t ∧ t.state = .pending ∧ t.report = none :=
  rsampling_succeeds hK (.ahb ms bs nb hbud hnb) hM
    (fun _ _ hR hp hl _ hf new => C53_ahb_answers_partial hbud hnb hR hp hf hl new)
    fs st r₀ rng as c e

/-! ## The example runs -/

/-- Steps of a worker whose objective returns 1. -/
def rsteps (w n : Nat) : List (RAct Nat Unit) :=
  List.replicate n (.step w { outcome := .returned (.float (.num 1)) } (gens 50))

/-- Two workers have each sampled and claimed a trial. The third one takes the locks and reads the
first trial; then both report, the first one first; then the third worker reads the second trial. -/
def crossing : List (RAct Nat Unit) :=
  rsteps 0 3 ++ [.lock 0 {}, .ask {} () .stored] ++ rsteps 0 1 ++
  rsteps 1 4 ++ [.lock 1 {}, .read {}, .ask {} () .stored] ++ rsteps 1 1 ++
  rsteps 2 5 ++ [.lock 2 {}, .read {}] ++ rsteps 0 2 ++ rsteps 1 2 ++ [.read {}, .ask {} () .stored]

/-- Reading the trials gives what was stored at one moment. -/
def Snapshots (A : Optimizer G O E) : Prop :=
  ∀ (fs : String → Option PyFloat) (st : Nat → Run.Settings) (r₀ : Rng G) (rng : Nat → Rng G)
    (as : List (RAct G E)), ∀ x ∈ (rrun A fs st (rstart A r₀ rng) as).main.asked,
    ∃ as₁ as₂, as = as₁ ++ as₂ ∧
      x.1.2.1.Perm ((rrun A fs st (rstart A r₀ rng) as₁).main.base.trials.map view)

/-- What the third worker asks with in the example run. -/
def crossed : (Unit × List View × PyFloat) × Sampled :=
  (((), [⟨"1", [("x", .int 7)], none, .evaluating, none⟩,
    ⟨"2", [("x", .int 8)], none, .success, some (.success, some (.num 1), none, none)⟩], 0),
    ⟨"3", [("x", .int 9)], none⟩)

set_option maxRecDepth 8000 in
/-- **C144 fails** for snapshots: an optimizer can be asked with the report of one trial and without
the earlier report of another one (`neps/state/neps_state.py:93-95`). -/
theorem C144_snapshot_fails : ¬ Snapshots (E := Unit) (randomSearch drawNat) := by
  intro h
  have hx : crossed ∈ (rrun (randomSearch drawNat) (fun _ => none) (fun _ => plain)
      (rstart (randomSearch drawNat) (gens 7) (fun w => gens (100 * w))) crossing).main.asked := by
    decide +kernel
  obtain ⟨as₁, as₂, h1, h2⟩ := h _ _ _ _ crossing crossed hx
  have hall : crossing.inits.all (fun l => !(crossed.1.2.1.isPerm
      ((rrun (randomSearch drawNat) (fun _ => none) (fun _ => plain)
        (rstart (randomSearch drawNat) (gens 7) (fun w => gens (100 * w))) l).main.base.trials.map
          view))) = true := by
    decide +kernel
  have := List.all_eq_true.mp hall as₁ ((List.mem_inits _ _).mpr ⟨as₂, h1.symm⟩)
  rw [List.isPerm_iff.mpr h2] at this
  simp at this

set_option maxRecDepth 8000 in
/-- The hypotheses of the theorems are met: hyperband with the same schedule. The third worker sees
that the second trial is finished but not that the first one is, and starts the next bracket. The
fourth worker promotes. -/
example :
    let A := multiFidelity demoCodec (demoParts (fun _ : Unit => false))
    let W := rrun A (fun _ => none) (fun _ => plain) (rstart A (gens 7) (fun w => gens (100 * w)))
      (crossing ++ rsteps 2 1 ++ rsteps 3 6 ++
        [.lock 3 {}, .read {}, .read {}, .read {}, .ask {} () .stored])
    (∀ i, i < 2 → Good (twoRungs i)) ∧ (∀ i, i < 2 → Agrees (twoRungs i) (fun r => r + 1)) ∧
    (∀ c ∈ claims W.main.base.log, c.2.2.state = .pending) ∧
    W.main.base.trials.map (fun t => (t.metadata.id, t.metadata.previousTrialId, t.report.isSome)) =
      [("0_0", none, true), ("1_0", none, true), ("2_1", none, false), ("0_1", some "0_0", false)] := by
  refine ⟨twoRungs_good, twoRungs_agree, by decide +kernel, by decide +kernel⟩

end Neps.Seed
