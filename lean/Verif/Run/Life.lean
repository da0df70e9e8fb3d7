import Verif.Run.Claims

/-!
# Workers that run one after the other, the life of a trial, and the books
-/

namespace Neps.Run

open Neps.Store (Disk Handle)

theorem Trans.other {fs st W w W'} (t : Trans fs st W w W') {w' : Nat} (hne : w' ≠ w) :
    W'.worker w' = W.worker w' := by
  cases t with
  | idle => rfl
  | kill => simp [hne]
  | torn => simp [hne]
  | step c _ ha s => cases s <;> simp [hne]

theorem mem_sortByTime {l : List (String × PyFloat)} {p} : p ∈ sortByTime l ↔ p ∈ l :=
  (List.perm_insertionSort _ l).mem_iff

/-- All claims so far were made from a copy that said PENDING. -/
def AllPending (W : World) : Prop := ∀ c ∈ claims W.log, c.2.2.state = .pending

/-- What worker `w` knows if nobody else writes. -/
def Solo (W : World) (w : Nat) : Prop :=
  match (W.worker w).pc with
  | .pend _ found => ∀ p ∈ found, ∃ t, (W.disk p.1).data = some t ∧ t.state = .pending
  | .fetch id => ∃ t, (W.disk id).data = some t ∧ t.state = .pending
  | .claim _ h => h.cur.state = .pending
  | _ => True

theorem Solo.trans {fs st W w W'} (I : Solo W w) (A : AllPending W) (t : Trans fs st W w W') :
    Solo W' w ∧ AllPending W' := by
  cases t with
  | idle => exact ⟨I, A⟩
  | kill => exact ⟨by simpa [Solo] using I, A⟩
  | torn s loc v n ha hpc hl hi hvn => exact ⟨by simp [Solo, hpc], A⟩
  | step c _ ha s =>
    cases s with
    | idle => exact ⟨I, A⟩
    | move pc' m =>
      refine ⟨?_, A⟩
      generalize hpc : (W.worker w).pc = pc at m
      simp only [Solo, hpc] at I
      cases m <;> simp only [Solo, goto_worker, if_true, goto_disk]
      case pendList => simp
      case pendHit id todo found h hl hp =>
        intro p hpm
        simp only [List.mem_append, List.mem_singleton] at hpm
        rcases hpm with hpm | rfl
        · exact I p hpm
        · exact ⟨h.cur, (load_ok hl).2, hp⟩
      case pendMiss => exact I
      case pendSome found id time rest hs =>
        have : (id, time) ∈ sortByTime found := by rw [hs]; simp
        exact I _ (mem_sortByTime.mp this)
    | fetch id h hpc hl =>
      refine ⟨?_, A⟩
      simp only [Solo, hpc] at I
      obtain ⟨t, ht, hs⟩ := I
      simp only [Solo, goto_worker, if_true]
      rw [(load_ok hl).2] at ht
      cases ht
      exact hs
    | create s loc hpc hs hl hi hv => exact ⟨by simp [Solo, newTrial, Trial.new], A⟩
    | claimOk id h hpc hv =>
      simp only [Solo, hpc] at I
      refine ⟨by simp [Solo], ?_⟩
      intro x hx
      simp only [emit_log, setW_log, setDisk_log, claims, List.mem_cons] at hx
      rcases hx with rfl | hx
      · exact I
      · exact A x hx
    | claimLost id h pc' n hpc hv ho =>
      refine ⟨?_, A⟩
      rcases ho with ⟨rfl, _⟩ | rfl | rfl <;> simp [Solo]
    | evalErr id h e hpc he => exact ⟨by simp [Solo], A⟩
    | evalOk id h t r hpc he => exact ⟨by simp [Solo], A⟩
    | reportOk id h t r hpc hv => exact ⟨by simp [Solo], A⟩
    | budget t r pc' hpc ho =>
      refine ⟨?_, A⟩
      rcases ho with ⟨rfl, _⟩ | ⟨_, _, rfl⟩ <;> simp [Solo]
    | logErr t r e hpc => exact ⟨by simp [Solo], A⟩

/-- One worker acting alone. -/
theorem Solo.run {fs st w} (as : List Act) (hby : OnlyBy (· = w) as) {W : World} (I : Solo W w)
    (A : AllPending W) : AllPending (run fs st W as) ∧
      ∀ w', w' ≠ w → (Neps.Run.run fs st W as).worker w' = W.worker w' := by
  induction as generalizing W with
  | nil => exact ⟨A, fun _ _ => rfl⟩
  | cons a as ih =>
    have ha : a.who = w := hby a (by simp)
    have t := act_trans fs st W a
    rw [ha] at t
    obtain ⟨I', A'⟩ := I.trans A t
    obtain ⟨h1, h2⟩ := ih (fun b hb => hby b (by simp [hb])) I' A'
    exact ⟨h1, fun w' hne => (h2 w' hne).trans (t.other hne)⟩

/-- Workers acting one after the other. -/
theorem sequential_run {fs st} (blocks : List (Nat × List Act))
    (hby : ∀ b ∈ blocks, OnlyBy (· = b.1) b.2) (hnd : (blocks.map (·.1)).Nodup) {W : World}
    (A : AllPending W) (htop : ∀ b ∈ blocks, (W.worker b.1).pc = .top) :
    AllPending (run fs st W (blocks.flatMap (·.2))) := by
  induction blocks generalizing W with
  | nil => exact A
  | cons b bs ih =>
    simp only [List.flatMap_cons, run_append]
    have hs : Solo W b.1 := by simp [Solo, htop b (by simp)]
    obtain ⟨A', ho⟩ := hs.run (fs := fs) (st := st) b.2 (hby b (by simp)) A
    simp only [List.map_cons, List.nodup_cons, List.mem_map, not_exists, not_and] at hnd
    refine ih (fun b' hb' => hby b' (by simp [hb'])) hnd.2 A' ?_
    intro b' hb'
    rw [ho b'.1 (fun e => hnd.1 b' hb' e)]
    exact htop b' (by simp [hb'])

/-! ## The log only grows -/

theorem Trans.log_suffix {fs st W w W'} (t : Trans fs st W w W') : W.log <:+ W'.log := by
  cases t with
  | idle => exact List.suffix_rfl
  | kill => exact List.suffix_rfl
  | torn => exact List.suffix_rfl
  | step c _ ha s =>
    cases s <;> first | exact List.suffix_rfl | exact List.suffix_cons _ _

theorem claims_append (l₁ l₂ : List Event) : claims (l₁ ++ l₂) = claims l₁ ++ claims l₂ := by
  induction l₁ with
  | nil => rfl
  | cons e l ih => cases e <;> simp [claims, ih]

theorem AllPending.of_suffix {W W' : World} (h : W.log <:+ W'.log) (A : AllPending W') :
    AllPending W := by
  obtain ⟨l, hl⟩ := h
  intro c hc
  exact A c (by rw [← hl, claims_append]; simp [hc])

theorem run_log_suffix (fs st) (W : World) (as : List Act) : W.log <:+ (run fs st W as).log :=
  run_induction fs st (P := fun W' => W.log <:+ W'.log)
    (fun _ _ _ h t => h.trans t.log_suffix) List.suffix_rfl as

/-! ## The life of a trial -/

/-- How a transition can change a stored trial. -/
theorem Effect.change {fs W w W'} (C : Coh fs W) (e : Effect fs W w W') {id : String} {t : Trial}
    (ht : (W.disk id).data = some t) : ∃ t', (W'.disk id).data = some t' ∧
      ((W.disk id).ver.isSome → (W'.disk id).ver.isSome) ∧ t'.sampledPart = t.sampledPart ∧
      (t' = t ∨
       (∃ now, t' = t.setEvaluating now (workerName w) ∧
          claims W'.log = (w, id, t) :: claims W.log) ∨
       (t.state = .evaluating ∧
          ∃ r, t'.report = some r ∧ t'.state = r.reportedAs.state ∧ r.trialId = id)) := by
  have hmem : id ∈ W.ids := by
    by_contra hn
    rw [(C.fresh id hn).2] at ht
    simp at ht
  cases e with
  | none hids hdisk hc => exact ⟨t, by rw [hdisk]; exact ht, by rw [hdisk]; exact fun h => h, rfl,
      Or.inl rfl⟩
  | created id' t' hi hids hdisk hs hr hn hc hh hsm =>
    have e : id ≠ id' := fun e => hi (e ▸ hmem)
    exact ⟨t, by rw [hdisk]; simpa [e] using ht, by rw [hdisk]; simp [e], rfl, Or.inl rfl⟩
  | torn id' v n hi hids hdisk hc =>
    have e : id ≠ id' := fun e => hi (e ▸ hmem)
    exact ⟨t, by rw [hdisk]; simpa [e] using ht, by rw [hdisk]; simp [e], rfl, Or.inl rfl⟩
  | claimed id' h now hi hpc hv hd hids hdisk hc =>
    by_cases e : id = id'
    · subst e
      rw [hd] at ht
      cases ht
      exact ⟨h.cur.setEvaluating now (workerName w), by rw [hdisk]; simp, by rw [hdisk]; simp, rfl,
        Or.inr (Or.inl ⟨now, rfl, hc⟩)⟩
    · exact ⟨t, by rw [hdisk]; simpa [e] using ht, by rw [hdisk]; simp [e], rfl, Or.inl rfl⟩
  | reported id' h t' r hi hpc hv hd hs hsp hst hid hids hdisk hc =>
    by_cases e : id = id'
    · subst e
      rw [hd] at ht
      cases ht
      exact ⟨{ t' with report := some r }, by rw [hdisk]; simp, by rw [hdisk]; simp, hsp,
        Or.inr (Or.inr ⟨hs, r, rfl, hst, hid⟩)⟩
    · exact ⟨t, by rw [hdisk]; simpa [e] using ht, by rw [hdisk]; simp [e], rfl, Or.inl rfl⟩

/-- A stored trial was stored before, or is new and pending. -/
theorem Effect.origin {fs W w W'} (e : Effect fs W w W') {id : String} {t : Trial}
    (ht : (W'.disk id).data = some t) : (∃ t₀, (W.disk id).data = some t₀) ∨
      (t.state = .pending ∧ t.report = Option.none) := by
  cases e with
  | none hids hdisk hc => rw [hdisk] at ht; exact Or.inl ⟨t, ht⟩
  | created id' t' hi hids hdisk hs hr hn hc hh hsm =>
    rw [hdisk] at ht
    by_cases e : id = id'
    · simp only [e, if_true, Option.some.injEq] at ht
      subst ht
      exact Or.inr ⟨hs, hr⟩
    · simp only [e, if_false] at ht; exact Or.inl ⟨t, ht⟩
  | torn id' v n hi hids hdisk hc =>
    rw [hdisk] at ht
    by_cases e : id = id'
    · simp [e] at ht
    · simp only [e, if_false] at ht; exact Or.inl ⟨t, ht⟩
  | claimed id' h now hi hpc hv hd hids hdisk hc =>
    rw [hdisk] at ht
    by_cases e : id = id'
    · subst e; exact Or.inl ⟨_, hd⟩
    · simp only [e, if_false] at ht; exact Or.inl ⟨t, ht⟩
  | reported id' h t' r hi hpc hv hd hs hsp hst hid hids hdisk hc =>
    rw [hdisk] at ht
    by_cases e : id = id'
    · subst e; exact Or.inl ⟨_, hd⟩
    · simp only [e, if_false] at ht; exact Or.inl ⟨t, ht⟩

/-- The states a stored trial can be in: waiting or running without a report, or finished with a
matching report. -/
def LifeOk (id : String) (t : Trial) : Prop :=
  ((t.state = .pending ∨ t.state = .evaluating) ∧ t.report = none) ∨
  ∃ r, t.report = some r ∧ t.state = r.reportedAs.state ∧ r.trialId = id

/-- All stored trials are in such a state. -/
def LifeInv (W : World) : Prop := ∀ id t, (W.disk id).data = some t → LifeOk id t

theorem LifeInv.trans {fs st W w W'} (C : Coh fs W) (I : LifeInv W) (A : AllPending W')
    (t : Trans fs st W w W') : LifeInv W' := by
  intro id t' ht'
  have e := C.effect t
  rcases e.origin ht' with ⟨t₀, h₀⟩ | ⟨hs, hr⟩
  · obtain ⟨t₁, h₁, _, _, h⟩ := e.change C h₀
    rw [h₁] at ht'
    cases ht'
    rcases h with rfl | ⟨now, rfl, hc⟩ | ⟨hs, r, hr, hst, hid⟩
    · exact I id _ h₀
    · have hp : t₀.state = .pending := A (w, id, t₀) (by rw [hc]; simp)
      rcases I id t₀ h₀ with ⟨_, hn⟩ | ⟨r, hr, hst, _⟩
      · exact Or.inl ⟨Or.inr rfl, hn⟩
      · rw [hp] at hst
        cases hra : r.reportedAs <;> simp [hra, ReportedAs.state] at hst
    · exact Or.inr ⟨r, hr, hst, hid⟩
  · exact Or.inl ⟨Or.inl hs, hr⟩

theorem lifeInv_run {fs st as} (A : AllPending (run fs st {} as)) : LifeInv (run fs st {} as) := by
  have h := run_induction fs st
    (P := fun W => Coh fs W ∧ (AllPending W → LifeInv W)) (W := {})
    (fun W w W' I t => ⟨I.1.trans t, fun A' =>
      (I.2 (A'.of_suffix t.log_suffix)).trans I.1 A' t⟩)
    ⟨Coh.init fs, fun _ => by simp [LifeInv, Disk.empty]⟩ as
  exact h.2 A

/-- Along an execution the sampled part of a trial is constant and it stays readable. -/
theorem run_keeps {fs st} {W : World} (C : Coh fs W) (as : List Act) {id : String} {t : Trial}
    (ht : (W.disk id).data = some t) :
    ∃ t', ((run fs st W as).disk id).data = some t' ∧
      ((W.disk id).ver.isSome → ((run fs st W as).disk id).ver.isSome) ∧
      t'.sampledPart = t.sampledPart ∧ (t.report.isSome → t'.report.isSome) := by
  induction as generalizing W t with
  | nil => exact ⟨t, ht, fun h => h, rfl, fun h => h⟩
  | cons a as ih =>
    have tr := act_trans fs st W a
    obtain ⟨t₁, h₁, hv₁, hs₁, hch⟩ := (C.effect tr).change C ht
    obtain ⟨t₂, h₂, hv₂, hs₂, hr₂⟩ := ih (C.trans tr) h₁
    refine ⟨t₂, h₂, fun h => hv₂ (hv₁ h), hs₂.trans hs₁, fun hr => hr₂ ?_⟩
    rcases hch with rfl | ⟨_, rfl, _⟩ | ⟨_, r, hr', _⟩
    · exact hr
    · exact hr
    · simp [hr']

theorem run_ids_mono {fs st} {W : World} (C : Coh fs W) (as : List Act) {id : String}
    (h : id ∈ W.ids) : id ∈ (run fs st W as).ids := by
  induction as generalizing W with
  | nil => exact h
  | cons a as ih =>
    have tr := act_trans fs st W a
    refine ih (C.trans tr) ?_
    rcases C.effect tr with ⟨h1⟩ | ⟨_, _, _, h1⟩ | ⟨_, _, _, _, h1⟩ | ⟨_, _, _, _, _, _, _, h1⟩ |
      ⟨_, _, _, _, _, _, _, _, _, _, _, _, h1⟩ <;> rw [h1] <;> simp [h]

/-- How far a trial has come. -/
def stage (t : Trial) : Nat :=
  match t.state with
  | .pending => 0
  | .evaluating => 1
  | _ => 2

theorem stage_final {t : Trial} {r : Report} (h : t.state = r.reportedAs.state) : stage t = 2 := by
  unfold stage
  rw [h]
  cases r.reportedAs <;> rfl

/-- Along an execution without double claims a trial only moves forward, and a finished trial does
not change. -/
theorem run_forward {fs st} {W : World} (C : Coh fs W) (as : List Act)
    (A : AllPending (run fs st W as)) {id : String} {t : Trial}
    (ht : (W.disk id).data = some t) :
    ∃ t', ((run fs st W as).disk id).data = some t' ∧ stage t ≤ stage t' ∧
      (stage t = stage t' → t' = t) := by
  induction as generalizing W t with
  | nil => exact ⟨t, ht, Nat.le_refl _, fun _ => rfl⟩
  | cons a as ih =>
    have tr := act_trans fs st W a
    obtain ⟨t₁, h₁, _, _, hch⟩ := (C.effect tr).change C ht
    obtain ⟨t₂, h₂, hle, heq⟩ := ih (C.trans tr) A h₁
    refine ⟨t₂, h₂, ?_⟩
    rcases hch with rfl | ⟨_, rfl, hc⟩ | ⟨hs, r, hr', hst, _⟩
    · exact ⟨hle, heq⟩
    · have A₁ : AllPending (act fs st W a) := A.of_suffix (run_log_suffix fs st _ as)
      have hp : t.state = .pending := A₁ (a.who, id, t) (by rw [hc]; simp)
      have h0 : stage t = 0 := by simp [stage, hp]
      simp only [Trial.setEvaluating, stage] at hle
      have h1 : 1 ≤ stage t₂ := hle
      exact ⟨by omega, fun e => by omega⟩
    · have h1 : stage t = 1 := by simp [stage, hs]
      have h2 := stage_final hst
      exact ⟨by omega, fun e => by omega⟩

end Neps.Run
