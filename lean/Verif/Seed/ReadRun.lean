import Verif.Seed.ReadLemmas

/-!
# Reading the trials one after the other: all executions
-/

namespace Neps.Seed

open Neps.Run Neps.MF
open Neps.Store (Disk Handle)

variable {G O E P F : Type}

/-- What is preserved by all actions. -/
structure RInv (K : Codec P F) (A : AskFn P F → Prop) (fs : String → Option PyFloat)
    (W : RWorld G Unit E) : Prop where
  held : Held fs W
  mf : MFInv K A fs W.main.base
  asks : AskInv K A W.main
  mix : ∀ R, W.reading = some R → Mix K A W.main.base R

theorem read_perm {fs} {W : World} (C : Coh fs W) {w got}
    {vs : List View} (hf : List.Forall₂ (Behind W []) W.trials vs)
    (hall : (got.map (·.id) ++ []).Perm W.ids) (h5 : ∀ v ∈ (⟨w, [], got⟩ : Reading).got, v ∈ vs) :
    got.Perm vs := by
  have hnd : got.Nodup := by
    have : (got.map (·.id)).Nodup := by
      rw [List.append_nil] at hall
      exact hall.nodup_iff.mpr C.nodup
    exact this.of_map _
  refine (hnd.subperm h5).perm_of_length_le ?_
  have h1 := hall.length_eq
  have h2 := hf.length_eq
  have h3 : W.trials.length ≤ W.ids.length := List.length_filterMap_le _ _
  simp only [List.append_nil, List.length_map] at h1
  omega

/-- The rest of a sampling: the new trial continues the history. -/
theorem RInv.sampleFrom {K : Codec P F} (hK : K.Faithful) {M : MFParts G E P F} {A : AskFn P F → Prop}
    {budget : Nat → F} (hA : IsMF budget A) (hM : ∀ r, A (M.choose r).1) {fs st}
    {W : RWorld G Unit E} (I : RInv K A fs W) {w got} (hR : W.reading = some ⟨w, [], got⟩) {c e d} :
    MFInv K A fs (sampleFrom (multiFidelity K M) fs st W.main w c e got d).base ∧
      AskInv K A (sampleFrom (multiFidelity K M) fs st W.main w c e got d) := by
  have hs := I.held.holder _ hR
  have J := I.mf
  unfold Seed.sampleFrom
  split
  · exact ⟨J.trans hA (act_trans fs st W.main.base (.step w { c with ask := none }))
      (Or.inl (act_none_ids hs)),
      I.asks.of_run J.coh (bs := [.step w { c with ask := none }]) (st := st) rfl rfl⟩
  · next h s o r hp =>
    simp only
    have tr := act_trans fs st W.main.base (.step w { c with ask := some s })
    split
    · next hids => exact ⟨J.trans hA tr (Or.inl hids),
        I.asks.of_run J.coh (bs := [.step w { c with ask := some s }]) (st := st) rfl rfl⟩
    · next hids =>
      obtain ⟨loc, -, htr⟩ := act_sample_trials hs hids
      obtain ⟨snap, -, rfl, hask⟩ := proposeFrom_some hp
      obtain ⟨H', p, hH', hf, hsp, -⟩ := multiFidelity_some hask
      obtain ⟨vs, Hm, m1, m2, m3, m4, m5⟩ := I.mix _ hR
      have hperm : H'.Perm Hm := by
        obtain ⟨ys, j1, j2⟩ := mapM_perm (read_perm J.coh m1 (I.held.all _ hR) m5)
          (xs := Hm) (f := recOf K) m2
        rw [hH'] at j1
        cases j1
        exact j2
      have hb : MFInv K A fs (act fs st W.main.base (.step w { c with ask := some s })) := by
        refine ⟨J.coh.trans tr, fun h => (J.life (h.of_suffix tr.log_suffix)).trans J.coh h tr, ?_⟩
        obtain ⟨H, i1, -, -⟩ := J.hist
        obtain ⟨l1, l2⟩ := forall₂_recs m1 i1 m2
        refine ⟨H ++ [p.toRec], ?_, ?_, fun h => ?_⟩
        · rw [readAll, htr, mapM_append, show W.main.base.trials.mapM _ = some H from i1, hsp]
          simp [recOf_new hK]
        · exact catch_up hA l1 [] [p.toRec] (.ask m3 (hM _) hperm hf)
        · have hp := h.of_suffix tr.log_suffix
          exact catch_up_once hA (l2 hp) [] [p.toRec] (.ask (m4 hp) (hM _) hperm hf)
      refine ⟨?_, ?_⟩
      · cases d with
        | false => exact hb
        | true => exact hb.trans hA (st := st) .kill (Or.inl rfl)
      have hb : ∃ bs : List Act, (if d = true then
          (act fs st W.main.base (.step w { c with ask := some s })).killW w
          else act fs st W.main.base (.step w { c with ask := some s })) = run fs st W.main.base bs := by
        cases d with
        | false => exact ⟨[.step w { c with ask := some s }], rfl⟩
        | true => exact ⟨[.step w { c with ask := some s }, .kill w], rfl⟩
      obtain ⟨bs, hb⟩ := hb
      rw [hb]
      refine ⟨?_, ?_⟩
      · intro x hx
        simp only [List.mem_append, List.mem_singleton] at hx
        rcases hx with hx | rfl
        · exact I.asks.asks x hx
        · exact ⟨Hm, H', _, _, p, m3, hperm, hM _, hH', hf, hsp⟩
      · intro x hx v hv
        simp only [List.mem_append, List.mem_singleton] at hx
        have key : ∃ t, W.main.base.stored v.id = some t ∧ t.config = v.config ∧
            (v.result.isSome → t.report.isSome) := by
          rcases hx with hx | rfl
          · exact I.asks.views x hx v hv
          · obtain ⟨t, ht, hb⟩ := forall₂_mem m1 (m5 v hv)
            refine ⟨t, by rw [hb.1]; exact stored_of_mem J.coh ht, hb.2.1.symm, fun h => ?_⟩
            rcases hb.2.2 with e | ⟨-, e, -⟩
            · rw [e] at h
              simpa [view] using h
            · exact e
        obtain ⟨t, h1, h2, h3⟩ := key
        obtain ⟨t', k1, k2, k3⟩ := stored_run (st := st) J.coh bs h1
        simp only [Trial.sampledPart, SampledPart.mk.injEq] at k2
        exact ⟨t', k1, k2.1.trans h2, fun h => k3 (h3 h)⟩

theorem RInv.nodup {K : Codec P F} {A : AskFn P F → Prop} {fs} {W : RWorld G Unit E}
    (I : RInv K A fs W) {R : Reading} (hR : W.reading = some R) :
    (R.got.map (·.id) ++ R.todo).Nodup := (I.held.all R hR).nodup_iff.mpr I.mf.coh.nodup

theorem RInv.act {K : Codec P F} (hK : K.Faithful) {M : MFParts G E P F} {A : AskFn P F → Prop}
    {budget : Nat → F} (hA : IsMF budget A) (hM : ∀ r, A (M.choose r).1) {fs st}
    {W : RWorld G Unit E} (I : RInv K A fs W) (a : RAct G E) :
    RInv K A fs (ract (multiFidelity K M) fs st W a) := by
  have hheld := I.held.act (A := multiFidelity K M) (st := st) a
  cases a with
  | step w c noise =>
    simp only [ract] at hheld ⊢
    split
    · exact I
    · next hw =>
      have hw : waits W w = false := by simpa using hw
      rw [if_neg (by simp [hw])] at hheld
      have tr := act_trans fs st W.main.base (.step w c)
      have hids := act_other_ids (fs := fs) (st := st) (c := c) (not_waits hw)
      exact ⟨hheld, I.mf.trans hA tr (Or.inl hids),
        I.asks.of_run I.mf.coh (bs := [.step w c]) (st := st) rfl rfl,
        fun R hR => (I.mix R hR).trans hA I.mf.coh I.mf.life (I.nodup hR) tr hids⟩
  | kill w =>
    have tr := act_trans fs st W.main.base (.kill w)
    refine ⟨hheld, I.mf.trans hA tr (Or.inl rfl),
      I.asks.of_run I.mf.coh (bs := [.kill w]) (st := st) rfl rfl, fun R hR => ?_⟩
    simp only [ract, Option.filter_eq_some_iff] at hR
    exact (I.mix R hR.1).trans hA I.mf.coh I.mf.life (I.nodup hR.1) tr rfl
  | lock w c =>
    simp only [ract] at hheld ⊢
    split
    · next h =>
      rw [if_pos h] at hheld
      refine ⟨hheld, I.mf, I.asks, ?_⟩
      rintro R ⟨⟩
      exact Mix.start I.mf.hist _ _
    · exact I
  | read c =>
    revert hheld
    simp only [ract]
    split
    · next w id todo got hR =>
      split
      · next h hl =>
        intro hheld
        refine ⟨hheld, I.mf, I.asks, ?_⟩
        rintro R ⟨⟩
        exact (I.mix _ hR).read I.mf.coh (I.nodup hR) (load_stored hl)
      · intro hheld
        exact ⟨hheld, I.mf.trans hA (act_trans fs st W.main.base (.step w { c with ask := none }))
          (Or.inl (act_none_ids (I.held.holder _ hR))),
          I.asks.of_run I.mf.coh (bs := [.step w { c with ask := none }]) (st := st) rfl rfl,
          by simp⟩
    · exact fun _ => I
  | ask c e how =>
    revert hheld
    simp only [ract]
    split
    · next w got hR =>
      cases how with
      | stored =>
        intro hheld
        have := I.sampleFrom hK hA hM (st := st) hR (c := c) (e := e) (d := false)
        exact ⟨hheld, this.1, this.2, by simp⟩
      | beforeSeed =>
        intro hheld
        have := I.sampleFrom hK hA hM (st := st) hR (c := c) (e := e) (d := true)
        exact ⟨hheld, this.1, this.2, by simp⟩
      | creating torn =>
        intro hheld
        exact ⟨hheld, I.mf.trans hA (act_trans fs st W.main.base (.killCreating w _ torn))
          (Or.inr (kill_creating_trials (st := st) I.mf.coh w _ torn)),
          I.asks.of_run I.mf.coh (bs := [.killCreating w _ torn]) (st := st) rfl rfl, by simp⟩
    · exact fun _ => I

theorem RInv.run {K : Codec P F} (hK : K.Faithful) {M : MFParts G E P F} {A : AskFn P F → Prop}
    {budget : Nat → F} (hA : IsMF budget A) (hM : ∀ r, A (M.choose r).1) {fs st}
    {W : RWorld G Unit E} (I : RInv K A fs W) (as : List (RAct G E)) :
    RInv K A fs (rrun (multiFidelity K M) fs st W as) := by
  induction as generalizing W with
  | nil => exact I
  | cons a as ih => exact ih (I.act hK hA hM a)

theorem rInv_start (K : Codec P F) (M : MFParts G E P F) (A : AskFn P F → Prop) (fs r₀ rng) :
    RInv K A fs (rstart (multiFidelity K M) r₀ rng) :=
  ⟨held_start _ fs r₀ rng, mfInv_start K M A fs r₀ rng, ⟨by simp [rstart, start], by simp [rstart, start]⟩,
    by simp [rstart]⟩

/-! ## The proposals -/

theorem logEq_sampleFrom {A : Optimizer G O E} {fs st} {W : SWorld G O E} (I : LogEq fs W) {w c e ts d}
    (hs : samples W.base w = true) : LogEq fs (sampleFrom A fs st W w c e ts d) := by
  unfold Seed.sampleFrom
  split
  · have tr := act_trans fs st W.base (.step w { c with ask := none })
    exact ⟨I.coh.trans tr, (sampled_trans I.coh tr (Or.inl (act_none_ids hs))).trans I.eq⟩
  · next h s o r hp =>
    have tr := act_trans fs st W.base (.step w { c with ask := some s })
    simp only
    split
    · next hids => exact ⟨I.coh.trans tr, (sampled_trans I.coh tr (Or.inl hids)).trans I.eq⟩
    · next hids =>
      obtain ⟨loc, -, htr⟩ := act_sample_trials hs hids
      have h2 : (act fs st W.base (.step w { c with ask := some s })).trials.map toSampled =
          proposals W ++ [s] := by
        rw [htr, List.map_append, I.eq]
        rfl
      cases d with
      | false => exact ⟨I.coh.trans tr, by simpa [proposals] using h2⟩
      | true =>
        have tr2 : Trans fs st (act fs st W.base (.step w { c with ask := some s })) w _ := .kill
        exact ⟨(I.coh.trans tr).trans tr2,
          (sampled_trans (I.coh.trans tr) tr2 (Or.inl rfl)).trans (by simpa [proposals] using h2)⟩

theorem logEq_ract {A : Optimizer G O E} {fs st} {W : RWorld G O E} (J : Held fs W)
    (I : LogEq fs W.main) (a : RAct G E) : LogEq fs (ract A fs st W a).main := by
  cases a with
  | step w c noise =>
    simp only [ract]
    split
    · exact I
    · next hw =>
      have hw : waits W w = false := by simpa using hw
      have tr := act_trans fs st W.main.base (.step w c)
      exact ⟨I.coh.trans tr, (sampled_trans I.coh tr
        (Or.inl (act_other_ids (fs := fs) (st := st) (c := c) (not_waits hw)))).trans I.eq⟩
  | kill w =>
    have tr : Trans fs st W.main.base w (W.main.base.killW w) := .kill
    exact ⟨I.coh.trans tr, (sampled_trans I.coh tr (Or.inl rfl)).trans I.eq⟩
  | lock w c =>
    simp only [ract]
    split <;> exact I
  | read c =>
    simp only [ract]
    split
    · next w id todo got hR =>
      split
      · exact I
      · have tr := act_trans fs st W.main.base (.step w { c with ask := none })
        exact ⟨I.coh.trans tr, (sampled_trans I.coh tr
          (Or.inl (act_none_ids (J.holder _ hR)))).trans I.eq⟩
    · exact I
  | ask c e how =>
    simp only [ract]
    split
    · next w got hR =>
      cases how with
      | stored => exact logEq_sampleFrom I (J.holder _ hR)
      | beforeSeed => exact logEq_sampleFrom I (J.holder _ hR)
      | creating torn =>
        have tr := act_trans fs st W.main.base (.killCreating w
          { c with ask := (proposeFrom A W.main w got e).map (·.2.1) } torn)
        exact ⟨I.coh.trans tr, (sampled_trans I.coh tr
          (Or.inr (kill_creating_trials (st := st) I.coh w _ torn))).trans I.eq⟩
    · exact I

theorem logEq_rrun {A : Optimizer G O E} {fs st} {W : RWorld G O E} (J : Held fs W)
    (I : LogEq fs W.main) (as : List (RAct G E)) : LogEq fs (rrun A fs st W as).main := by
  induction as generalizing W with
  | nil => exact I
  | cons a as ih => exact ih (J.act a) (logEq_ract J I a)

end Neps.Seed
