import Verif.Seed.MFLemmas

/-!
# What was asked and proposed, and what is stored
-/

namespace Neps.Seed

open Neps.Run Neps.MF
open Neps.Store (Disk Handle)

variable {G O E P F : Type}

/-- The proposal a stored trial was made from. -/
def toSampled (t : Trial) : Sampled := ⟨t.metadata.id, t.config, t.metadata.previousTrialId⟩

theorem toSampled_of_part {t t' : Trial} (h : t'.sampledPart = t.sampledPart) :
    toSampled t' = toSampled t := by
  simp only [Trial.sampledPart, SampledPart.mk.injEq] at h
  simp only [toSampled, Sampled.mk.injEq]
  exact ⟨h.2.1, h.1, h.2.2.2.1⟩

/-- Transitions that create no trial keep the sampled parts. -/
theorem sampled_trans {fs st W w W'} (C : Coh fs W) (tr : Trans fs st W w W')
    (hids : W'.ids = W.ids ∨ W'.trials = W.trials) :
    W'.trials.map toSampled = W.trials.map toSampled := by
  rcases hids with hids | ht
  swap
  · rw [ht]
  cases (C.effect tr).changes C with
  | same ht _ => rw [ht]
  | added id t h1 h2 h3 h4 h5 h6 h7 =>
    have hlen : W'.trials = W.trials := by
      simp only [World.trials, hids]
      refine List.filterMap_congr (fun x hx => ?_)
      exact h7 x (fun e => h6 (e ▸ hx))
    rw [hlen]
  | claimed id l₁ l₂ h now hpc e1 e2 h0 h1 h2 => rw [e1, e2]; simp [toSampled, Trial.setEvaluating]
  | reported id l₁ l₂ h t r hpc hs e1 e2 h0 h1 h2 =>
    obtain ⟨dv, o, a, b, hr⟩ := C.result w id h t r hpc
    obtain ⟨k1, -⟩ := evalTrial_ok hr
    rw [e1, e2]
    simp only [List.map_append, List.map_cons]
    rw [← toSampled_of_part k1]
    rfl

theorem toSampled_new (w : Nat) (s : Sampled) (loc : Option String) (now : PyFloat) :
    toSampled (newTrial w s loc now) = s := rfl

/-- The readable trials are the proposals. -/
structure LogEq (fs : String → Option PyFloat) (W : SWorld G O E) : Prop where
  coh : Coh fs W.base
  eq : W.base.trials.map toSampled = proposals W

theorem LogEq.sample {A : Optimizer G O E} {fs st} {W : SWorld G O E} (I : LogEq fs W) {w c e d}
    (hs : samples W.base w = true) : LogEq fs (sample A fs st W w c e d) := by
  unfold Seed.sample
  split
  · have tr := act_trans fs st W.base (.step w { c with ask := none })
    exact ⟨I.coh.trans tr, (sampled_trans I.coh tr (Or.inl (act_none_ids hs))).trans I.eq⟩
  · next h s o r hp =>
    have tr := act_trans fs st W.base (.step w { c with ask := some s })
    simp only
    split
    · next hids => exact ⟨I.coh.trans tr, (sampled_trans I.coh tr (Or.inl hids)).trans I.eq⟩
    · next hids =>
      obtain ⟨loc, -, htr⟩ := act_sample_trials hs hids
      have h2 : (act fs st W.base (.step w { c with ask := some s })).trials.map toSampled =
          proposals W ++ [s] := by
        rw [htr, List.map_append, I.eq]
        rfl
      cases d with
      | false => exact ⟨I.coh.trans tr, by simpa [proposals] using h2⟩
      | true =>
        have tr2 : Trans fs st (act fs st W.base (.step w { c with ask := some s })) w _ := .kill
        exact ⟨(I.coh.trans tr).trans tr2,
          (sampled_trans (I.coh.trans tr) tr2 (Or.inl rfl)).trans (by simpa [proposals] using h2)⟩

theorem LogEq.act {A : Optimizer G O E} {fs st} {W : SWorld G O E} (I : LogEq fs W) (a : SAct G E) :
    LogEq fs (sact A fs st W a) := by
  have hk : ∀ w, LogEq fs { W with base := Run.act fs st W.base (.kill w) } := fun w =>
    have tr : Trans fs st W.base w (W.base.killW w) := .kill
    ⟨I.coh.trans tr, (sampled_trans I.coh tr (Or.inl rfl)).trans I.eq⟩
  cases a with
  | killSampling w c e =>
    simp only [sact]
    split
    · next hs => exact I.sample hs
    · exact hk w
  | act a e noise =>
    cases a with
    | step w c =>
      simp only [sact]
      split
      · next hs => exact I.sample hs
      · next hs =>
        have tr := act_trans fs st W.base (.step w c)
        exact ⟨I.coh.trans tr,
          (sampled_trans I.coh tr (Or.inl (act_other_ids (by simpa using hs)))).trans I.eq⟩
    | kill w => exact hk w
    | killCreating w c torn =>
      have tr := act_trans fs st W.base (.killCreating w
        { c with ask := (propose A W w c e).map (·.2.1) } torn)
      exact ⟨I.coh.trans tr, (sampled_trans I.coh tr
        (Or.inr (kill_creating_trials (st := st) I.coh w _ torn))).trans I.eq⟩

theorem LogEq.run {A : Optimizer G O E} {fs st} {W : SWorld G O E} (I : LogEq fs W)
    (as : List (SAct G E)) : LogEq fs (srun A fs st W as) := by
  induction as generalizing W with
  | nil => exact I
  | cons a as ih => exact ih (I.act a)

theorem logEq_start (A : Optimizer G O E) (fs : String → Option PyFloat) (r₀ rng) :
    LogEq fs (start A r₀ rng) := ⟨Coh.init fs, rfl⟩

/-! ## The log of a multi-fidelity optimizer -/

/-- The proposal as the worker sees it. -/
def sampledOf (K : Codec P F) (p : Proposal P F) : Sampled :=
  ⟨idStr p.key, K.enc p.params p.fid, p.prev.map idStr⟩

/-- Every ask was one on a history, and the trials it saw are still stored. -/
structure AskInv (K : Codec P F) (A : AskFn P F → Prop) (W : SWorld G O E) : Prop where
  asks : ∀ x ∈ W.asked, ∃ H H' f new p, Reach A H ∧ H'.Perm H ∧ A f ∧
    x.1.2.1.mapM (recOf K) = some H' ∧ f H' new = .ok p ∧ x.2 = sampledOf K p
  views : ∀ x ∈ W.asked, ∀ v ∈ x.1.2.1, ∃ t, W.base.stored v.id = some t ∧ t.config = v.config ∧
    (v.result.isSome → t.report.isSome)

theorem stored_run {fs st} {W : World} (C : Coh fs W) (bs : List Act) {id : String} {t : Trial}
    (h : W.stored id = some t) : ∃ t', (run fs st W bs).stored id = some t' ∧
      t'.sampledPart = t.sampledPart ∧ (t.report.isSome → t'.report.isSome) := by
  obtain ⟨⟨v, hv⟩, hd⟩ := stored_eq_some.mp h
  obtain ⟨t', h1, h2, h3, h4⟩ := run_keeps (st := st) C bs hd
  obtain ⟨v', hv'⟩ := Option.isSome_iff_exists.mp (h2 (by rw [hv]; rfl))
  exact ⟨t', stored_eq_some.mpr ⟨⟨v', hv'⟩, h1⟩, h3, h4⟩

theorem AskInv.of_run {K : Codec P F} {A : AskFn P F → Prop} {W W' : SWorld G O E} {fs st}
    (C : Coh fs W.base) (I : AskInv K A W) {bs : List Act} (hb : W'.base = run fs st W.base bs)
    (ha : W'.asked = W.asked) : AskInv K A W' := by
  refine ⟨by rw [ha]; exact I.asks, ?_⟩
  rw [ha]
  intro x hx v hv
  obtain ⟨t, h1, h2, h3⟩ := I.views x hx v hv
  obtain ⟨t', k1, k2, k3⟩ := stored_run (st := st) C bs h1
  simp only [Trial.sampledPart, SampledPart.mk.injEq] at k2
  exact ⟨t', by rw [hb]; exact k1, k2.1.trans h2, fun h => k3 (h3 h)⟩

theorem view_stored {fs} {W : World} (C : Coh fs W) {v : View} (h : v ∈ W.trials.map view) :
    ∃ t, W.stored v.id = some t ∧ v = view t := by
  simp only [World.trials, List.mem_map, List.mem_filterMap] at h
  obtain ⟨t, ⟨id, -, h1⟩, rfl⟩ := h
  have := C.names id t (stored_eq_some.mp h1).2
  exact ⟨t, by simp only [view, this]; exact h1, rfl⟩

theorem AskInv.sample {K : Codec P F} {M : MFParts G E P F} {A : AskFn P F → Prop}
    (hM : ∀ r, A (M.choose r).1) {fs st} {W : SWorld G Unit E} (I : AskInv K A W)
    (J : MFInv K A fs W.base) {w c e d} :
    AskInv K A (sample (multiFidelity K M) fs st W w c e d) := by
  unfold Seed.sample
  split
  · exact I.of_run J.coh (bs := [.step w { c with ask := none }]) (st := st) rfl rfl
  · next h s o r hp =>
    simp only
    split
    · exact I.of_run J.coh (bs := [.step w { c with ask := some s }]) (st := st) rfl rfl
    · obtain ⟨snap, -, -, hseen, -, hask⟩ := propose_some hp
      obtain ⟨H', p, hH', hf, hsp, -⟩ := multiFidelity_some hask
      obtain ⟨H, i1, i2, -⟩ := J.hist
      have hperm : H'.Perm H := by
        obtain ⟨ys, j1, j2⟩ := mapM_perm (seen_perm hseen) (xs := H) (f := recOf K) (by
          rw [mapM_map]; exact i1)
        rw [hH'] at j1
        cases j1
        exact j2
      have hb : ∃ bs : List Act, (if d = true then
          (act fs st W.base (.step w { c with ask := some s })).killW w
          else act fs st W.base (.step w { c with ask := some s })) = run fs st W.base bs := by
        cases d with
        | false => exact ⟨[.step w { c with ask := some s }], rfl⟩
        | true => exact ⟨[.step w { c with ask := some s }, .kill w], rfl⟩
      obtain ⟨bs, hb⟩ := hb
      rw [hb]
      refine ⟨?_, ?_⟩
      · intro x hx
        simp only [List.mem_append, List.mem_singleton] at hx
        rcases hx with hx | rfl
        · exact I.asks x hx
        · exact ⟨H, H', _, _, p, i2, hperm, hM _, hH', hf, hsp⟩
      · intro x hx v hv
        simp only [List.mem_append, List.mem_singleton] at hx
        have key : ∃ t, W.base.stored v.id = some t ∧ t.config = v.config ∧
            (v.result.isSome → t.report.isSome) := by
          rcases hx with hx | rfl
          · exact I.views x hx v hv
          · obtain ⟨t, h1, h2⟩ := view_stored J.coh ((seen_perm hseen).mem_iff.mp hv)
            refine ⟨t, h1, by rw [h2]; rfl, ?_⟩
            rw [h2]
            simp [view]
        obtain ⟨t, h1, h2, h3⟩ := key
        obtain ⟨t', k1, k2, k3⟩ := stored_run (st := st) J.coh bs h1
        simp only [Trial.sampledPart, SampledPart.mk.injEq] at k2
        exact ⟨t', k1, k2.1.trans h2, fun h => k3 (h3 h)⟩

theorem AskInv.act {K : Codec P F} {M : MFParts G E P F} {A : AskFn P F → Prop}
    (hM : ∀ r, A (M.choose r).1) {fs st} {W : SWorld G Unit E} (I : AskInv K A W)
    (J : MFInv K A fs W.base) (a : SAct G E) : AskInv K A (sact (multiFidelity K M) fs st W a) := by
  cases a with
  | killSampling w c e =>
    simp only [sact]
    split
    · exact I.sample hM J
    · exact I.of_run J.coh (bs := [.kill w]) (st := st) rfl rfl
  | act a e noise =>
    cases a with
    | step w c =>
      simp only [sact]
      split
      · exact I.sample hM J
      · exact I.of_run J.coh (bs := [.step w c]) (st := st) rfl rfl
    | kill w => exact I.of_run J.coh (bs := [.kill w]) (st := st) rfl rfl
    | killCreating w c torn => exact I.of_run J.coh (bs := [.killCreating w _ torn]) (st := st) rfl rfl

theorem askInv_run {K : Codec P F} (hK : K.Faithful) {M : MFParts G E P F} {A : AskFn P F → Prop}
    {budget : Nat → F} (hA : IsMF budget A) (hM : ∀ r, A (M.choose r).1) {fs st}
    {W : SWorld G Unit E} (I : AskInv K A W) (J : MFInv K A fs W.base) (as : List (SAct G E)) :
    AskInv K A (srun (multiFidelity K M) fs st W as) := by
  induction as generalizing W with
  | nil => exact I
  | cons a as ih => exact ih (I.act hM J a) (J.act hK hA hM a)

end Neps.Seed
