import Verif.Seed.MFModel
import Verif.Seed.Props
import Verif.MF.Props
import Verif.Run.Totals

/-!
# Executions with a multi-fidelity optimizer produce histories of that optimizer
-/

namespace Neps.Seed

open Neps.Run Neps.MF
open Neps.Store (Disk Handle)

variable {G E P F : Type}

theorem mapM_append {A B : Type} (f : A → Option B) (l₁ l₂ : List A) :
    (l₁ ++ l₂).mapM f = (l₁.mapM f).bind (fun x => (l₂.mapM f).map (x ++ ·)) := by
  induction l₁ with
  | nil => simp
  | cons a l₁ ih =>
    simp only [List.cons_append, List.mapM_cons, ih]
    cases f a with
    | none => rfl
    | some b =>
      cases l₁.mapM f with
      | none => rfl
      | some x => cases l₂.mapM f <;> rfl

theorem mapM_eq_some {A B : Type} {f : A → Option B} {l : List A} {xs : List B} :
    l.mapM f = some xs ↔ l.map f = xs.map some := by
  induction l generalizing xs with
  | nil => cases xs <;> simp
  | cons a l ih =>
    simp only [List.mapM_cons, List.map_cons]
    cases hf : f a with
    | none => cases xs <;> simp
    | some b =>
      cases hl : l.mapM f with
      | none =>
        cases xs with
        | nil => simp
        | cons y ys =>
          simp only [List.map_cons, List.cons.injEq, Option.some.injEq, ← ih, hl]
          simp
      | some zs =>
        cases xs with
        | nil => simp
        | cons y ys =>
          simp only [List.map_cons, List.cons.injEq, Option.some.injEq, ← ih, hl]
          simp

theorem mapM_perm {A B : Type} {f : A → Option B} {l l' : List A} (h : l'.Perm l) {xs : List B}
    (hx : l.mapM f = some xs) : ∃ ys, l'.mapM f = some ys ∧ ys.Perm xs := by
  rw [mapM_eq_some] at hx
  have h1 : (l'.map f).Perm (xs.map some) := hx ▸ h.map f
  have h2 : l'.map f = ((l'.map f).filterMap id).map some := by
    have : ∀ o ∈ l'.map f, o.isSome = true := by
      intro o ho
      have := h1.mem_iff.mp ho
      simp only [List.mem_map] at this
      obtain ⟨x, -, rfl⟩ := this
      rfl
    revert this
    generalize l'.map f = L
    intro hL
    induction L with
    | nil => rfl
    | cons o L ih =>
      cases o with
      | none => have := hL none (by simp); simp at this
      | some x =>
        simp only [List.filterMap_cons, id, List.map_cons]
        congr 1
        exact ih (fun o ho => hL o (by simp [ho]))
  refine ⟨(l'.map f).filterMap id, mapM_eq_some.mpr h2, ?_⟩
  have := h1.filterMap id
  simpa [List.filterMap_map] using this

/-! ## Reading stored trials -/

/-- A successful report has a loss. -/
theorem evalTrial_loss {fs t₀ dv o a b t r} (h : evalTrial fs t₀ dv o a b = .ok (t, r)) :
    ∃ res, resOf (some (r.reportedAs, r.loss, r.cost, r.learningCurve)) = some res ∧ res ≠ .pending := by
  unfold evalTrial at h
  split at h
  · simp only [Trial.setComplete, Except.ok.injEq, Prod.mk.injEq] at h
    obtain ⟨-, rfl⟩ := h
    exact ⟨.error, rfl, by simp⟩
  · split at h
    · simp at h
    · simp only [Trial.setComplete, Except.ok.injEq, Prod.mk.injEq] at h
      obtain ⟨-, rfl⟩ := h
      exact ⟨_, rfl, by simp⟩

theorem recOf_some {K : Codec P F} {v : View} {x : Rec P F} (h : recOf K v = some x) :
    Ids.parseId v.id.toList = some (x.key.cfg, x.key.rung) ∧ K.dec v.config = some (x.params, x.fid) ∧
      resOf v.result = some x.res := by
  unfold recOf at h
  split at h
  · next h1 h2 h3 =>
    simp only [Option.some.injEq] at h
    subst h
    exact ⟨h1, h2, h3⟩
  · simp at h

theorem recOf_result {K : Codec P F} {v : View} {x : Rec P F} (h : recOf K v = some x) (v' : View)
    (h1 : v'.id = v.id) (h2 : v'.config = v.config) {res : Res} (h3 : resOf v'.result = some res) :
    recOf K v' = some { x with res := res } := by
  obtain ⟨e1, e2, e3⟩ := recOf_some h
  simp only [recOf, h1, h2, h3, e1, e2]

theorem report_split {H₁ H₂ : List (Rec P F)} {x : Rec P F} (res : Res)
    (hnd : ((H₁ ++ x :: H₂).map (·.key)).Nodup) :
    MF.report x.key res (H₁ ++ x :: H₂) = H₁ ++ { x with res := res } :: H₂ := by
  simp only [List.map_append, List.map_cons, List.nodup_append, List.nodup_cons, List.mem_map,
    List.mem_cons, not_exists, not_and] at hnd
  obtain ⟨-, ⟨hn2, -⟩, hn1⟩ := hnd
  have e1 : ∀ (l : List (Rec P F)), (∀ y ∈ l, y.key ≠ x.key) → MF.report x.key res l = l := by
    intro l hl
    simp only [MF.report]
    conv_rhs => rw [← List.map_id l]
    exact List.map_congr_left (fun y hy => by simp [hl y hy])
  have h1 := e1 H₁ (fun y hy e => hn1 _ ⟨y, hy, rfl⟩ _ (Or.inl rfl) e)
  have h2 := e1 H₂ (fun y hy e => hn2 y hy e)
  simp only [MF.report, List.map_append, List.map_cons, if_true] at *
  rw [h1, h2]

/-! ## The histories -/

/-- The stored trials are a history of the optimizers `A`; if no finished trial was claimed again, one
in which every trial is reported at most once. -/
def Hist (K : Codec P F) (A : AskFn P F → Prop) (W : World) : Prop :=
  ∃ H, readAll K W = some H ∧ Reach A H ∧ (AllPending W → ReachOnce A H)

theorem Hist.init (K : Codec P F) (A : AskFn P F → Prop) : Hist K A {} :=
  ⟨[], rfl, .start, fun _ => .start⟩

theorem Hist.of_trials {K : Codec P F} {A : AskFn P F → Prop} {W W' : World} (I : Hist K A W)
    (h : W'.trials = W.trials) (hp : AllPending W' → AllPending W) : Hist K A W' := by
  obtain ⟨H, h1, h2, h3⟩ := I
  exact ⟨H, by rw [readAll, h]; exact h1, h2, fun h => h3 (hp h)⟩

/-- Transitions that create no trial. -/
theorem Hist.trans {K : Codec P F} {A : AskFn P F → Prop} {budget : Nat → F} (hA : IsMF budget A)
    {fs st W w W'} (C : Coh fs W) (L : AllPending W → LifeInv W) (I : Hist K A W)
    (tr : Trans fs st W w W') (hids : W'.ids = W.ids ∨ W'.trials = W.trials) : Hist K A W' := by
  have hlog : AllPending W' → AllPending W := fun h => h.of_suffix tr.log_suffix
  rcases hids with hids | ht
  swap
  · exact I.of_trials ht hlog
  cases (C.effect tr).changes C with
  | same ht _ => exact I.of_trials ht hlog
  | added id t h1 h2 h3 h4 h5 h6 h7 =>
    have hC' := C.trans tr
    have hlen : W'.trials = W.trials := by
      have : W'.stored id = none := stored_none_of_not_mem hC' (by rw [hids]; exact h6)
      simp only [World.trials, hids]
      refine List.filterMap_congr (fun x hx => ?_)
      exact h7 x (fun e => h6 (e ▸ hx))
    exact I.of_trials hlen hlog
  | claimed id l₁ l₂ h now hpc e1 e2 h0 h1 h2 =>
    obtain ⟨H, i1, i2, i3⟩ := I
    refine ⟨H, ?_, i2, fun h => i3 (hlog h)⟩
    rw [readAll, e2]
    rw [readAll, e1] at i1
    rw [mapM_eq_some] at i1 ⊢
    simp only [List.map_append, List.map_cons] at i1 ⊢
    exact i1
  | reported id l₁ l₂ h t r hpc hs e1 e2 h0 h1 h2 =>
    obtain ⟨H, i1, i2, i3⟩ := I
    obtain ⟨dv, o, a, b, hr⟩ := C.result w id h t r hpc
    obtain ⟨k1, k2, k3, k4⟩ := evalTrial_ok hr
    obtain ⟨res, hres, hnp⟩ := evalTrial_loss hr
    rw [readAll, e1, mapM_eq_some] at i1
    simp only [List.map_append, List.map_cons] at i1
    obtain ⟨H₁, Hr, hH, a1, a2⟩ := List.map_eq_append_iff.mp i1.symm
    obtain ⟨x, H₂, hx, a3, a4⟩ := List.map_eq_cons_iff.mp a2
    subst hx
    subst hH
    have hnd := (i2.inv hA).nodup
    have hx' : recOf K (view { t with report := some r }) = some { x with res := res } := by
      simp only [Trial.sampledPart, SampledPart.mk.injEq] at k1
      exact recOf_result a3.symm _ k1.2.1 k1.1 hres
    refine ⟨MF.report x.key res (H₁ ++ x :: H₂), ?_, .report _ _ i2 hnp, ?_⟩
    · rw [report_split res hnd, readAll, e2, mapM_eq_some]
      simp only [List.map_append, List.map_cons]
      rw [a1, a4, hx']
    · intro hAP
      refine .report _ _ (i3 (hlog hAP)) hnp ?_
      intro y hy hk
      have : y = x := inj_of_nodup_map hnd hy (by simp) hk
      subst this
      have hl := L (hlog hAP) id h.cur (stored_eq_some.mp h0).2
      have hrep : h.cur.report = none := by
        rcases hl with ⟨-, hn⟩ | ⟨r', -, hst, -⟩
        · exact hn
        · rw [hs] at hst
          cases hra : r'.reportedAs <;> simp [hra, ReportedAs.state] at hst
      have := (recOf_some a3.symm).2.2
      simp only [view, hrep, Option.map_none, resOf, Option.some.injEq] at this
      exact this.symm

/-! ## Sampling -/

theorem load_stored {W : World} {id : String} {h : Handle Trial} (e : Store.load (W.disk id) = .ok h) :
    W.stored id = some h.cur := by
  unfold World.stored
  rw [e]

theorem seen_perm {W : World} {c : Choice} {ts : List View} (h : seen W c = some ts) :
    ts.Perm (W.trials.map view) := by
  unfold seen at h
  obtain ⟨ys, h1, h2⟩ := mapM_perm (listing_perm W c).symm h
  refine h2.symm.trans ?_
  rw [show ys = W.trials.map view from ?_]
  rw [World.trials]
  revert h1
  generalize W.ids = L
  intro h1
  clear h2 h
  induction L generalizing ys with
  | nil => simpa using h1.symm
  | cons id L ih =>
    rw [mapM_eq_some] at h1
    cases ys with
    | nil => simp at h1
    | cons y ys =>
      simp only [List.map_cons, List.cons.injEq] at h1
      obtain ⟨a, b⟩ := h1
      cases hl : Store.load (W.disk id) with
      | error e => simp [hl] at a
      | ok h =>
        simp only [hl, Option.some.injEq] at a
        simp only [List.filterMap_cons, load_stored hl, List.map_cons, a]
        rw [← ih ys (mapM_eq_some.mpr b)]

theorem mapM_map {A B C : Type} (g : A → B) (f : B → Option C) (l : List A) :
    (l.map g).mapM f = l.mapM (fun a => f (g a)) := by
  induction l with
  | nil => rfl
  | cons a l ih => simp only [List.map_cons, List.mapM_cons, ih]

/-- An answer of the optimizer. -/
theorem multiFidelity_some {K : Codec P F} {M : MFParts G E P F} {o e ts b r s o' r'}
    (h : (multiFidelity K M).ask o e ts b r = some (s, o', r')) :
    ∃ H p, ts.mapM (recOf K) = some H ∧
      (M.choose r).1 H (M.draw H (M.interleave e) (M.choose r).2).1 = .ok p ∧
      s = ⟨idStr p.key, K.enc p.params p.fid, p.prev.map idStr⟩ ∧
      r' = (if p.prev.isSome then (M.choose r).2
        else (M.draw H (M.interleave e) (M.choose r).2).2) := by
  simp only [multiFidelity] at h
  split at h
  · simp at h
  · next H hH =>
    split at h
    · simp at h
    · next p hp =>
      simp only [Option.some.injEq, Prod.mk.injEq] at h
      exact ⟨H, p, hH, hp, h.1.symm, h.2.2.symm⟩

theorem recOf_new {K : Codec P F} (hK : K.Faithful) (p : Proposal P F) (w : Nat) (loc : Option String)
    (now : PyFloat) :
    recOf K (view (newTrial w ⟨idStr p.key, K.enc p.params p.fid, p.prev.map idStr⟩ loc now)) =
      some p.toRec := by
  simp [recOf, view, newTrial, Trial.new, idStr, Ids.parseId_fmtId, hK p.params p.fid, resOf,
    Proposal.toRec]

/-- What is preserved by all actions. -/
structure MFInv (K : Codec P F) (A : AskFn P F → Prop) (fs : String → Option PyFloat) (W : World) : Prop where
  coh : Coh fs W
  life : AllPending W → LifeInv W
  hist : Hist K A W

theorem MFInv.trans {K : Codec P F} {A : AskFn P F → Prop} {budget : Nat → F} (hA : IsMF budget A)
    {fs st W w W'} (I : MFInv K A fs W) (tr : Trans fs st W w W')
    (hids : W'.ids = W.ids ∨ W'.trials = W.trials) : MFInv K A fs W' :=
  ⟨I.coh.trans tr, fun h => (I.life (h.of_suffix tr.log_suffix)).trans I.coh h tr,
    I.hist.trans hA I.coh I.life tr hids⟩

theorem act_sample_trials {fs st} {W : World} {w : Nat} {c : Choice} {s : Sampled}
    (hs : samples W w = true) (hne : (act fs st W (.step w { c with ask := some s })).ids ≠ W.ids) :
    ∃ loc, prepareSample W s = some loc ∧ (act fs st W (.step w { c with ask := some s })).trials =
      W.trials ++ [newTrial w s loc c.now] := by
  simp only [samples, Bool.and_eq_true, beq_iff_eq] at hs
  obtain ⟨h1, h2⟩ := hs
  simp only [act, h1, if_true, stepW, h2] at hne ⊢
  cases hp : prepareSample W s with
  | none => simp [hp] at hne
  | some loc =>
    by_cases hi : s.id ∈ W.ids
    · simp [hp, hi] at hne
    · cases hn : Store.new (newTrial w s loc c.now) (W.disk s.id) with
      | mk res d =>
        cases res with
        | error e => simp [hp, hi, hn] at hne
        | ok h =>
          obtain ⟨-, -, hd⟩ := new_ok hn
          simp only [hi, hn, if_false]
          refine ⟨loc, rfl, ?_⟩
          simp only [World.trials, emit_ids, goto_ids, List.filterMap_append]
          congr 1
          · refine List.filterMap_congr (fun x hx => stored_congr ?_)
            have : x ≠ s.id := fun e => hi (e ▸ hx)
            simp [this]
          · simp only [List.filterMap_cons, List.filterMap_nil]
            rw [stored_eq_some.mpr ⟨⟨(W.disk s.id).next, by simp [hd]⟩, by simp [hd]; rfl⟩]

theorem MFInv.sample {K : Codec P F} (hK : K.Faithful) {M : MFParts G E P F} {A : AskFn P F → Prop}
    {budget : Nat → F} (hA : IsMF budget A) (hM : ∀ r, A (M.choose r).1) {fs st}
    {W : SWorld G Unit E} (I : MFInv K A fs W.base) {w c e d} (hs : samples W.base w = true) :
    MFInv K A fs (sample (multiFidelity K M) fs st W w c e d).base := by
  unfold Seed.sample
  split
  · exact I.trans hA (act_trans fs st W.base (.step w { c with ask := none }))
      (Or.inl (act_none_ids hs))
  · next h s o r hp =>
    simp only
    have tr := act_trans fs st W.base (.step w { c with ask := some s })
    split
    · next hids => exact I.trans hA tr (Or.inl hids)
    · next hids =>
      obtain ⟨loc, -, htr⟩ := act_sample_trials hs hids
      obtain ⟨snap, -, -, hseen, -, hask⟩ := propose_some hp
      obtain ⟨H', p, hH', hf, hsp, -⟩ := multiFidelity_some hask
      have hb : MFInv K A fs (act fs st W.base (.step w { c with ask := some s })) := by
        refine ⟨I.coh.trans tr, fun h => (I.life (h.of_suffix tr.log_suffix)).trans I.coh h tr, ?_⟩
        obtain ⟨H, i1, i2, i3⟩ := I.hist
        have hperm : H'.Perm H := by
          obtain ⟨ys, j1, j2⟩ := mapM_perm (seen_perm hseen) (xs := H) (f := recOf K) (by
            rw [mapM_map]; exact i1)
          rw [hH'] at j1
          cases j1
          exact j2
        refine ⟨H ++ [p.toRec], ?_, .ask i2 (hM _) hperm hf, fun h =>
          .ask (i3 (h.of_suffix tr.log_suffix)) (hM _) hperm hf⟩
        rw [readAll, htr, mapM_append, show W.base.trials.mapM _ = some H from i1, hsp]
        simp [recOf_new hK]
      cases d with
      | false => exact hb
      | true => exact hb.trans hA (st := st) .kill (Or.inl rfl)

theorem kill_creating_trials {fs st} {W : World} (C : Coh fs W) (w : Nat) (c : Choice) (torn : Bool) :
    (act fs st W (.killCreating w c torn)).trials = W.trials := by
  simp only [act]
  split
  · split
    · next s hpc hc =>
      split
      · rfl
      · split
        · rfl
        · next hi =>
          have hd : ∀ id, (({ (W.setDisk s.id (if torn then (Store.bump (W.disk s.id)).2 else W.disk s.id))
              with ids := W.ids ++ [s.id] }).killW w).stored id = W.stored id := by
            intro id
            by_cases e : id = s.id
            · subst e
              rw [stored_none_of_not_mem C hi]
              cases hx : World.stored _ s.id with
              | none => rfl
              | some t =>
                have := (stored_eq_some.mp hx).2
                simp only [killW_disk, setDisk_disk, if_true] at this
                have hf := (C.fresh s.id hi).2
                cases torn <;> simp [Store.bump, hf] at this
            · exact stored_congr (by simp [e])
          simp only [World.trials]
          rw [List.filterMap_congr (g := W.stored) (fun x _ => hd x)]
          simp only [killW_ids, List.filterMap_append, List.filterMap_cons, List.filterMap_nil,
            stored_none_of_not_mem C hi, List.append_nil]
    · rfl
  · rfl

theorem MFInv.act {K : Codec P F} (hK : K.Faithful) {M : MFParts G E P F} {A : AskFn P F → Prop}
    {budget : Nat → F} (hA : IsMF budget A) (hM : ∀ r, A (M.choose r).1) {fs st}
    {W : SWorld G Unit E} (I : MFInv K A fs W.base) (a : SAct G E) :
    MFInv K A fs (sact (multiFidelity K M) fs st W a).base := by
  cases a with
  | killSampling w c e =>
    simp only [sact]
    split
    · next hs => exact I.sample hK hA hM hs
    · exact I.trans hA (st := st) .kill (Or.inl rfl)
  | act a e noise =>
    cases a with
    | step w c =>
      simp only [sact]
      split
      · next hs => exact I.sample hK hA hM hs
      · next hs =>
        exact I.trans hA (act_trans fs st W.base (.step w c))
          (Or.inl (act_other_ids (by simpa using hs)))
    | kill w => exact I.trans hA (st := st) .kill (Or.inl rfl)
    | killCreating w c torn =>
      exact I.trans hA (act_trans fs st W.base (.killCreating w _ torn))
        (Or.inr (kill_creating_trials (st := st) I.coh w _ torn))

theorem MFInv.run {K : Codec P F} (hK : K.Faithful) {M : MFParts G E P F} {A : AskFn P F → Prop}
    {budget : Nat → F} (hA : IsMF budget A) (hM : ∀ r, A (M.choose r).1) {fs st}
    {W : SWorld G Unit E} (I : MFInv K A fs W.base) (as : List (SAct G E)) :
    MFInv K A fs (srun (multiFidelity K M) fs st W as).base := by
  induction as generalizing W with
  | nil => exact I
  | cons a as ih => exact ih (I.act hK hA hM a)

theorem mfInv_start (K : Codec P F) (M : MFParts G E P F) (A : AskFn P F → Prop) (fs r₀ rng) :
    MFInv K A fs (start (multiFidelity K M) r₀ rng).base :=
  ⟨Coh.init fs, fun _ => by simp [start, LifeInv, Disk.empty], Hist.init K A⟩

end Neps.Seed
