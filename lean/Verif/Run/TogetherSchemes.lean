import Verif.Run.Together

/-!
# Allowances for the two limits on the number of evaluations
-/

namespace Neps.Run

open Neps.Store (Disk Handle)

/-! ## `max_evaluations_per_run` -/

/-- Rounds left for a worker that has made `count` of `K` evaluations and lost `f` claims. -/
def roundsLeft (K count : Nat) (f : Option Nat) : Nat := (K - count) * 11 + (10 - f.getD 0)

theorem roundsLeft_le (K count : Nat) (f : Option Nat) : roundsLeft K count f ≤ K * 11 + 10 := by
  unfold roundsLeft
  omega

theorem spends_own {fs st W w W' K} (t : Trans fs st W w W') (I : CountInv (st w) W w)
    (hK : (st w).maxEvalsWorker = some K) :
    Spends (roundsLeft K (W.worker w).count (W.worker w).nFailed)
      (roundsLeft K ((W.worker w).count + 1) (some 0))
      (roundsLeft K (W'.worker w).count (W'.worker w).nFailed)
      (roundsLeft K ((W'.worker w).count + 1) (some 0)) (W.worker w).pc (W'.worker w).pc := by
  have hb := (I.below K hK).1
  cases t with
  | idle => unfold Spends; split <;> simp_all
  | kill => simp only [killW_worker, if_true]; unfold Spends; split <;> simp_all
  | torn s loc v n ha hpc hl hi hvn => simp [Spends, hpc]
  | step c _ ha s =>
    cases s with
    | idle => unfold Spends; split <;> simp_all
    | move pc' mv =>
      generalize hpc : (W.worker w).pc = pc at mv
      cases mv <;> simp [Spends]
    | fetch id h hpc hl => simp [Spends, hpc]
    | create s loc hpc hs hl hi hv => simp [Spends, hpc]
    | claimOk id h hpc hv =>
      have := hb (by simp [hpc, PC.pastCheck])
      simp [Spends, hpc, roundsLeft]
      omega
    | claimLost id h pc' n hpc hv ho =>
      rcases ho with ⟨rfl, m, h1, h2, rfl⟩ | rfl | rfl
      · simp [Spends, hpc, roundsLeft, h1]; omega
      · simp [Spends, hpc]
      · simp [Spends, hpc]
    | evalErr id h e hpc he => simp [Spends, hpc]
    | evalOk id h t r hpc he =>
      simp [Spends, hpc, roundsLeft]
    | reportOk id h t r hpc hv => simp [Spends, hpc]
    | budget t r pc' hpc ho =>
      rcases ho with ⟨rfl, _⟩ | ⟨_, _, rfl⟩ <;> simp [Spends, hpc]
    | logErr t r e hpc => simp [Spends, hpc]

/-- The allowances when every worker has a limit of its own. -/
def ownScheme (fs st) (n : Nat) (K : Nat → Nat) (hK : ∀ w < n, (st w).maxEvalsWorker = some (K w)) :
    Scheme fs st n where
  m W w := roundsLeft (K w) (W.worker w).count (W.worker w).nFailed
  m' W w := roundsLeft (K w) ((W.worker w).count + 1) (some 0)
  u _ := 0
  c := total K n * 11 + 10
  Inv W := ∀ w < n, CountInv (st w) W w
  le W w hw := by
    have h1 : K w ≤ total K n :=
      Finset.single_le_sum (f := K) (fun _ _ => Nat.zero_le _) (Finset.mem_range.mpr hw)
    have h2 := roundsLeft_le (K w) (W.worker w).count (W.worker w).nFailed
    have h3 := roundsLeft_le (K w) ((W.worker w).count + 1) (some 0)
    omega
  init w _ := countInv_run fs st [] w
  inv W w W' _ I t v hv := (I v hv).trans v t
  pay W w W' hw I t := by
    refine Or.inr ⟨le_refl _, fun v hv => ?_, spends_own t (I w hw) (hK w hw)⟩
    simp only [t.other hv]
    exact ⟨le_refl _, le_refl _⟩

/-! ## `max_evaluations_total` -/

/-- The trial counts for the limit, with and without trials in progress. -/
def tal (inc : Bool) (t : Trial) : Bool := if inc then counted t else t.report.isSome

/-- The number of trials that count. -/
def World.tally (inc : Bool) (W : World) : Nat := W.trials.countP (tal inc)

/-- The trial stored under `id` counts. -/
def World.talId (inc : Bool) (W : World) (id : String) : Bool :=
  match W.stored id with
  | some t => tal inc t
  | none => false

theorem evalCount_tal {s : Settings} {inc : Bool} (h : s.includeInProgress = inc) (l : List Trial) :
    evalCount s l = l.countP (tal inc) := by
  subst h
  unfold evalCount
  cases hb : s.includeInProgress <;> rfl

theorem countP_stored (inc : Bool) (W : World) (l : List String) :
    (l.filterMap W.stored).countP (tal inc) = l.countP (W.talId inc) := by
  induction l with
  | nil => rfl
  | cons id l ih =>
    rw [List.countP_cons]
    cases h : W.stored id with
    | none => simp [h, World.talId, ih]
    | some t => simp [h, World.talId, List.countP_cons, ih]

theorem tal_reported (inc : Bool) (t : Trial) (r : Report) :
    tal inc { t with report := some r } = true := by
  cases inc <;> simp [tal, counted]

theorem tal_setEvaluating (inc : Bool) (t : Trial) (now n) (h : tal inc t = true) :
    tal inc (t.setEvaluating now n) = true := by
  cases inc <;> simp_all [tal, counted, Trial.setEvaluating]

theorem tal_fresh (inc : Bool) (t : Trial) (h1 : t.state = .pending) (h2 : t.report = none) :
    tal inc t = false := by
  cases inc <;> simp [tal, counted, h1, h2]

section
variable {fs : String → Option PyFloat} {st : Nat → Settings} {W W' : World} {w : Nat} {inc : Bool}

theorem Changes.talId_mono (c : Changes W W' w) (C : Coh fs W) (id : String)
    (h : W.talId inc id = true) : W'.talId inc id = true := by
  unfold World.talId at h ⊢
  cases c with
  | same _ hs =>
    rcases hs id with hs | hs
    · rw [hs] at h; simp at h
    · rw [hs]; exact h
  | added id' t _ _ _ _ _ hi ho =>
    by_cases e : id = id'
    · subst e; rw [stored_none_of_not_mem C hi] at h; simp at h
    · rw [ho id e]; exact h
  | claimed id' _ _ h' now _ _ _ h0 h1 ho =>
    by_cases e : id = id'
    · subst e; rw [h0] at h; rw [h1]; exact tal_setEvaluating _ _ _ _ h
    · rw [ho id e]; exact h
  | reported id' _ _ h' t r _ _ _ _ _ h1 ho =>
    by_cases e : id = id'
    · subst e; rw [h1]; exact tal_reported _ _ _
    · rw [ho id e]; exact h

theorem Changes.tally_mono (c : Changes W W' w) : W.tally inc ≤ W'.tally inc := by
  unfold World.tally
  cases c with
  | same h _ => rw [h]
  | added id t _ _ h hs hr _ _ => rw [h]; simp
  | claimed id l₁ l₂ h now hpc h1 h2 _ _ _ =>
    rw [h1, h2]
    simp only [List.countP_append, List.countP_cons]
    cases hc : tal inc h.cur with
    | false => simp
    | true => simp [tal_setEvaluating inc h.cur now (workerName w) hc]
  | reported id l₁ l₂ h t r hpc hs h1 h2 _ _ _ =>
    rw [h1, h2]
    simp only [List.countP_append, List.countP_cons, tal_reported, if_true]
    split <;> omega

/-- The number of trials that count changes only by a claim or a report. -/
theorem Changes.tally_same (c : Changes W W' w) (h1 : ∀ id h, (W.worker w).pc ≠ .claim id h)
    (h2 : ∀ id h t r, (W.worker w).pc ≠ .report id h t r) : W'.tally inc = W.tally inc := by
  unfold World.tally
  cases c with
  | same h _ => rw [h]
  | added id t _ _ h hs hr _ _ => rw [h]; simp [tal_fresh inc t hs hr]
  | claimed id l₁ l₂ h now hpc _ _ _ _ _ => exact absurd hpc (h1 id h)
  | reported id l₁ l₂ h t r hpc _ _ _ _ _ _ => exact absurd hpc (h2 id h t r)

/-- A trial that somebody has started on. -/
def World.touched (W : World) (id : String) : Bool :=
  match W.stored id with
  | some t => t.state != .pending
  | none => false

/-- The worker goes for a trial that somebody has started on. -/
def stale (W : World) : PC → Bool
  | .pend _ found => found.any (fun p => W.touched p.1)
  | .fetch id => W.touched id
  | .claim _ h => h.cur.state != .pending
  | _ => false

theorem touched_of_effect (e : Effect fs W w W')
    (hn : ∀ id h, (W.worker w).pc = .claim id h → (W.disk id).ver = some h.ver →
      h.cur.state ≠ .pending ∨ W'.disk = W.disk)
    (id : String) (h : W'.touched id = true) : W.touched id = true := by
  unfold World.touched at h ⊢
  cases e with
  | none hids hdisk hc =>
    rwa [stored_congr (W := W) (W' := W') (id := id) (by rw [hdisk])] at h
  | created id' t hi hids hdisk hs hr hn hc hh hsm =>
    by_cases e : id = id'
    · subst e
      have : W'.stored id = some t := stored_eq_some.mpr (by rw [hdisk]; simp)
      rw [this] at h; simp [hs] at h
    · rwa [stored_congr (W := W) (W' := W') (id := id) (by rw [hdisk]; simp [e])] at h
  | torn id' v n hi hids hdisk hc =>
    by_cases e : id = id'
    · subst e
      cases hs : W'.stored id with
      | none => rw [hs] at h; simp at h
      | some t =>
        have := (stored_eq_some.mp hs).2
        rw [hdisk] at this
        simp at this
    · rwa [stored_congr (W := W) (W' := W') (id := id) (by rw [hdisk]; simp [e])] at h
  | claimed id' h' now hi hpc hv hd hids hdisk hc =>
    by_cases e : id = id'
    · subst e
      have : W.stored id = some h'.cur := stored_eq_some.mpr ⟨⟨_, hv⟩, hd⟩
      rw [this]
      rcases hn id h' hpc hv with hn | hn
      · simpa using hn
      · have h1 := congrArg (fun d => (d id).next) hn
        simp [hdisk] at h1
    · rwa [stored_congr (W := W) (W' := W') (id := id) (by rw [hdisk]; simp [e])] at h
  | reported id' h' t r hi hpc hv hd hs hsp hst hid hids hdisk hc =>
    by_cases e : id = id'
    · subst e
      have : W.stored id = some h'.cur := stored_eq_some.mpr ⟨⟨_, hv⟩, hd⟩
      rw [this]
      simp [hs]
    · rwa [stored_congr (W := W) (W' := W') (id := id) (by rw [hdisk]; simp [e])] at h

theorem stale_mono (hm : ∀ id, W'.touched id = true → W.touched id = true) (pc : PC)
    (h : stale W' pc = true) : stale W pc = true := by
  cases pc <;> simp [stale] at h ⊢
  case pend todo found =>
    obtain ⟨a, ⟨b, h1⟩, h2⟩ := h
    exact ⟨a, ⟨b, h1⟩, hm _ h2⟩
  case fetch id => exact hm _ h
  case claim id h' => exact h

/-- A handle that was overtaken remains so. -/
theorem Effect.overtaken (e : Effect fs W w W') (C : Coh fs W) {v : Nat} {id : String}
    {h : Handle Trial} (hh : (W.worker v).pc.handle = some (id, h))
    (hv : (W.disk id).ver ≠ some h.ver) : (W'.disk id).ver ≠ some h.ver := by
  obtain ⟨h1, h2, _, _⟩ := C.holds v id h hh
  cases e with
  | none hids hdisk hc => rw [hdisk]; exact hv
  | created id' t hi hids hdisk =>
    have e : id ≠ id' := fun e => hi (e ▸ h1)
    rw [hdisk]; simpa [e] using hv
  | torn id' v n hi hids hdisk hc =>
    have e : id ≠ id' := fun e => hi (e ▸ h1)
    rw [hdisk]; simpa [e] using hv
  | claimed id' h' now hi hpc hv' hd hids hdisk hc =>
    rw [hdisk]
    by_cases e : id = id'
    · subst e; simp; omega
    · simpa [e] using hv
  | reported id' h' t r hi hpc hv' hd hs hsp hst hid hids hdisk hc =>
    rw [hdisk]
    by_cases e : id = id'
    · subst e; simp; omega
    · simpa [e] using hv

/-- The part of a worker in the global allowance. -/
def part (inc : Bool) (N : Nat) (W : World) : PC → Nat
  | .stopped _ | .raised _ => 0
  | .sweep todo seen => if seen.countP (tal inc) + todo.countP (W.talId inc) < N then 2 else 0
  | .pendList | .pend _ _ | .fetch _ | .sample | .claim _ _ => 2
  | .eval id h | .report id h _ _ =>
    if (W.disk id).ver ≠ some h.ver then 0
    else if tal inc h.cur then (if W.tally inc < N then 2 else 0) else 1
  | _ => if W.tally inc < N then 2 else 0

theorem part_other {N : Nat} {v : Nat} (t : Trans fs st W w W') (C : Coh fs W) (hv : v ≠ w) :
    part inc N W' (W'.worker v).pc ≤ part inc N W (W.worker v).pc := by
  have e := C.effect t
  have c := e.changes C
  have h1 := c.tally_mono (inc := inc)
  rw [t.other hv]
  cases hpc : (W.worker v).pc with
  | sweep todo seen =>
    have := List.countP_mono_left (l := todo) (fun x _ hx => c.talId_mono (inc := inc) C x hx)
    simp only [part]
    split <;> split <;> omega
  | eval id h =>
    have := e.overtaken C (v := v) (id := id) (h := h) (by rw [hpc]; rfl)
    simp only [part]
    by_cases hx : (W.disk id).ver = some h.ver <;> by_cases hy : (W'.disk id).ver = some h.ver <;>
      simp_all
    repeat' split
    all_goals omega
  | report id h t r =>
    have := e.overtaken C (v := v) (id := id) (h := h) (by rw [hpc]; rfl)
    simp only [part]
    by_cases hx : (W.disk id).ver = some h.ver <;> by_cases hy : (W'.disk id).ver = some h.ver <;>
      simp_all
    repeat' split
    all_goals omega
  | _ => simp only [part]; repeat' split
         all_goals omega

/-- The number of trials that count after a claim, and what the claimed trial was. -/
theorem tally_replace {id : String} {t₀ t₁ : Trial} (C : Coh fs W) (hids : W'.ids = W.ids)
    (hmem : id ∈ W.ids) (h0 : W.stored id = some t₀) (h1 : W'.stored id = some t₁)
    (h2 : ∀ id', id' ≠ id → W'.stored id' = W.stored id') :
    W'.tally inc + (tal inc t₀).toNat = W.tally inc + (tal inc t₁).toNat := by
  obtain ⟨l₁, l₂, e1, e2⟩ := trials_replace C hids hmem h0 h1 h2
  unfold World.tally
  rw [e1, e2]
  simp only [List.countP_append, List.countP_cons]
  cases tal inc t₀ <;> cases tal inc t₁ <;> simp <;> omega

/-- The part of the acting worker, and the rest of the limit. -/
theorem part_own {N M : Nat} (t : Trans fs st W w W') (C : Coh fs W) (U : Unreported W)
    (hs : (st w).maxEvalsTotal = some N) (hinc : (st w).includeInProgress = inc) (hNM : N ≤ M) :
    2 * (M - W'.tally inc) + part inc N W' (W'.worker w).pc + 1 ≤
      2 * (M - W.tally inc) + part inc N W (W.worker w).pc ∨
    2 * (M - W'.tally inc) + part inc N W' (W'.worker w).pc ≤
      2 * (M - W.tally inc) + part inc N W (W.worker w).pc ∧
    (∀ id h, (W.worker w).pc = .claim id h → (W.disk id).ver = some h.ver →
      h.cur.state ≠ .pending ∨ W'.disk = W.disk) := by
  have hlim : (st w).hasGlobalLimit = true := by simp [Settings.hasGlobalLimit, hs]
  have c := (C.effect t).changes C
  have same := c.tally_same (inc := inc)
  cases t with
  | idle => exact Or.inr ⟨le_refl _, fun _ _ _ _ => Or.inr rfl⟩
  | kill =>
    refine Or.inr ⟨?_, fun _ _ _ _ => Or.inr rfl⟩
    simp only [killW_worker, if_true]
    exact le_refl _
  | torn s loc v n ha hpc hl hi hvn =>
    refine Or.inr ⟨?_, by simp [hpc]⟩
    rw [same (by simp [hpc]) (by simp [hpc])]
    simp [hpc, part]
  | step c' _ ha s =>
    cases s with
    | idle => exact Or.inr ⟨le_refl _, fun _ _ _ _ => Or.inr rfl⟩
    | move pc' mv =>
      have hT : (W.goto w pc').tally inc = W.tally inc := rfl
      have hI : (W.goto w pc').talId inc = W.talId inc := rfl
      generalize hpc : (W.worker w).pc = pc at mv
      right
      refine ⟨?_, ?_⟩
      · rw [hT]
        refine Nat.add_le_add_left ?_ _
        simp only [goto_worker, if_true]
        cases mv
        case topPend wall hh hr hg => rw [hlim] at hg; simp at hg
        case errPend hh hg => rw [hlim] at hg; simp at hg
        case sweepList l hl =>
          have : l.countP (W.talId inc) = W.tally inc := by
            rw [hl.countP_eq, ← countP_stored inc W W.ids]; rfl
          simp [part, hI, this]
        case sweepPend seen hh =>
          have := (globalCheck_none hh).1
          rw [evalCount_tal hinc] at this
          simp only [reachedN, hs, decide_eq_false_iff_not, Nat.not_le] at this
          simp [part, this]
        case sweepOk id todo seen h hl =>
          have : W.talId inc id = tal inc h.cur := by simp [World.talId, World.stored, hl]
          simp only [part, hI, List.countP_append, List.countP_cons, List.countP_nil, this]
          repeat' split
          all_goals omega
        all_goals simp [part, hT]
      · rintro id h rfl
        cases mv
    | fetch id h hpc hl =>
      refine Or.inr ⟨?_, by simp [hpc]⟩
      rw [same (by simp [hpc]) (by simp [hpc])]
      simp [hpc, part]
    | create s loc hpc hs hl hi hv =>
      refine Or.inr ⟨?_, by simp [hpc]⟩
      rw [same (by simp [hpc]) (by simp [hpc])]
      simp [hpc, part]
    | claimOk id h hpc hv =>
      obtain ⟨h1, h2, h3, h4⟩ := C.holds w id h (by rw [hpc]; rfl)
      have hd := h4 hv
      have e0 : W.stored id = some h.cur := stored_eq_some.mpr ⟨⟨_, hv⟩, hd⟩
      generalize hW : ((W.setDisk id ⟨some (W.disk id).next,
          some (h.cur.setEvaluating c'.now (workerName w)), (W.disk id).next + 1⟩).setW w
        { W.worker w with
          pc := .eval id ⟨h.cur.setEvaluating c'.now (workerName w), (W.disk id).next⟩,
          nFailed := some 0 }).emit (.claimed w id h.cur) = Y
      have hids : Y.ids = W.ids := by rw [← hW]; rfl
      have hver : (Y.disk id).ver = some (W.disk id).next := by rw [← hW]; simp
      have hpc' : (Y.worker w).pc =
          .eval id ⟨h.cur.setEvaluating c'.now (workerName w), (W.disk id).next⟩ := by
        rw [← hW]; simp
      have e1 : Y.stored id = some (h.cur.setEvaluating c'.now (workerName w)) :=
        stored_eq_some.mpr (by rw [← hW]; simp)
      have e2 : ∀ id', id' ≠ id → Y.stored id' = W.stored id' := by
        intro id' e; exact stored_congr (by rw [← hW]; simp [e])
      have et := tally_replace (inc := inc) C hids h1 e0 e1 e2
      rw [hpc', hpc]
      simp only [part, hver, ne_eq, not_true_eq_false, if_false]
      cases hc : tal inc h.cur with
      | true =>
        right
        rw [hc] at et
        simp only [tal_setEvaluating inc h.cur c'.now (workerName w) hc, Bool.toNat_true,
          if_true] at et ⊢
        refine ⟨?_, ?_⟩
        · split <;> omega
        · intro id' h' e _
          cases e
          left
          intro hp
          rw [tal_fresh inc h.cur hp (U id h.cur hd hp)] at hc
          simp at hc
      | false =>
        left
        rw [hc] at et
        cases hc' : tal inc (h.cur.setEvaluating c'.now (workerName w)) with
        | true =>
          rw [hc'] at et
          simp only [Bool.toNat_true, Bool.toNat_false, if_true] at et ⊢
          split <;> omega
        | false =>
          rw [hc'] at et
          simp only [Bool.toNat_false, Bool.false_eq_true, if_false] at et ⊢
          omega
    | claimLost id h pc' n hpc hv ho =>
      refine Or.inr ⟨?_, ?_⟩
      · have hT : ((W.setW w { W.worker w with pc := pc', nFailed := n }).emit
            (.claimLost w id)).tally inc = W.tally inc := rfl
        rw [hT]
        rcases ho with ⟨rfl, _⟩ | rfl | rfl
        · simp [hpc, part, hT]; split <;> omega
        · simp [part]
        · simp [part]
      · intro id' h' hpc'
        rw [hpc] at hpc'
        cases hpc'
        exact fun hv' => absurd hv' hv
    | evalErr id h e hpc he =>
      refine Or.inr ⟨?_, by simp [hpc]⟩
      rw [same (by simp [hpc]) (by simp [hpc])]
      simp [part]
    | evalOk id h t r hpc he =>
      refine Or.inr ⟨?_, by simp [hpc]⟩
      rw [same (by simp [hpc]) (by simp [hpc])]
      simp only [hpc, part, emit_worker, setW_worker, if_true]
      exact le_refl _
    | reportOk id h t r hpc hv =>
      obtain ⟨h1, h2, h3, h4⟩ := C.holds w id h (by rw [hpc]; rfl)
      have hd := h4 hv
      have e0 : W.stored id = some h.cur := stored_eq_some.mpr ⟨⟨_, hv⟩, hd⟩
      generalize hW : ((W.setDisk id ⟨some (W.disk id).next, some { t with report := some r },
          (W.disk id).next + 1⟩).goto w (.budget t r)).emit (.reported w id r) = Y
      have hids : Y.ids = W.ids := by rw [← hW]; rfl
      have hpc' : (Y.worker w).pc = .budget t r := by rw [← hW]; simp
      have e1 : Y.stored id = some { t with report := some r } :=
        stored_eq_some.mpr (by rw [← hW]; simp)
      have e2 : ∀ id', id' ≠ id → Y.stored id' = W.stored id' := by
        intro id' e; exact stored_congr (by rw [← hW]; simp [e])
      have et := tally_replace (inc := inc) C hids h1 e0 e1 e2
      rw [tal_reported] at et
      refine Or.inr ⟨?_, by simp [hpc]⟩
      rw [hpc', hpc]
      simp only [part, hv, ne_eq, not_true_eq_false, if_false]
      cases hc : tal inc h.cur with
      | true =>
        rw [hc] at et
        simp only [Bool.toNat_true, if_true] at et ⊢
        repeat' split
        all_goals omega
      | false =>
        rw [hc] at et
        simp only [Bool.toNat_true, Bool.toNat_false, Bool.false_eq_true, if_false] at et ⊢
        split <;> omega
    | budget t r pc' hpc ho =>
      refine Or.inr ⟨?_, by simp [hpc]⟩
      have hT : (({ W with budget := W.budget + r.cost.getD 0 }.goto w pc').emit
        (.charged w r)).tally inc = W.tally inc := rfl
      rcases ho with ⟨rfl, _⟩ | ⟨_, _, rfl⟩ <;> simp [hpc, part, hT]
    | logErr t r e hpc =>
      refine Or.inr ⟨?_, by simp [hpc]⟩
      rw [same (by simp [hpc]) (by simp [hpc])]
      have hT : (({ W with errs := W.errs ++ [errEntry w t r e] }.goto w .top).emit
          (.logged w (errEntry w t r e))).tally inc = W.tally inc := rfl
      simp [hpc, part, hT]

/-- Rounds left for a worker, apart from those the global allowance pays for. -/
def lossesLeft (W : World) (x : Worker) : Nat :=
  10 - x.nFailed.getD 0 + if stale W x.pc then 11 else 0

theorem lossesLeft_le (W : World) (x : Worker) : lossesLeft W x ≤ 21 := by
  unfold lossesLeft
  split <;> omega

theorem touched_load {id : String} {h : Handle Trial} (hl : Store.load (W.disk id) = .ok h) :
    W.touched id = (h.cur.state != .pending) := by
  simp [World.touched, World.stored, hl]

theorem spends_total (t : Trans fs st W w W')
    (hn : ∀ id h, (W.worker w).pc = .claim id h → (W.disk id).ver = some h.ver →
      h.cur.state ≠ .pending ∨ W'.disk = W.disk) :
    Spends (lossesLeft W (W.worker w)) 10 (lossesLeft W' (W'.worker w)) 10
      (W.worker w).pc (W'.worker w).pc := by
  cases t with
  | idle => unfold Spends; split <;> simp_all
  | kill =>
    have : ∀ x, stale (W.killW w) x = stale W x := fun x => rfl
    simp only [killW_worker, if_true, lossesLeft, this]
    unfold Spends; split <;> simp_all
  | torn s loc v n ha hpc hl hi hvn => simp [Spends, hpc, lossesLeft, stale]
  | step c _ ha s =>
    cases s with
    | idle => unfold Spends; split <;> simp_all
    | move pc' mv =>
      have e : ∀ x, stale (W.goto w pc') x = stale W x := fun x => rfl
      have e' : stale W pc' = true → stale W (W.worker w).pc = true := by
        generalize hpc : (W.worker w).pc = pc at mv
        cases mv <;> simp [stale]
        case pendHit id todo found h hl hp =>
          simp [touched_load hl, hp]
        case pendSome found id time rest hs =>
          intro h
          have : (id, time) ∈ found := by
            have : (id, time) ∈ sortByTime found := by rw [hs]; simp
            exact (List.mem_insertionSort _).mp this
          exact ⟨id, ⟨time, this⟩, h⟩
      have hle : lossesLeft (W.goto w pc') ((W.goto w pc').worker w) ≤ lossesLeft W (W.worker w) := by
        simp only [lossesLeft, goto_worker, if_true, e]
        by_cases h1 : stale W pc' = true
        · simp [h1, e' h1]
        · simp [h1]
      generalize lossesLeft (W.goto w pc') ((W.goto w pc').worker w) = x at hle ⊢
      generalize lossesLeft W (W.worker w) = y at hle ⊢
      generalize hpc : (W.worker w).pc = pc at mv
      cases mv <;> simp [Spends, hle]
    | fetch id h hpc hl =>
      simp [Spends, hpc, lossesLeft, stale, touched_load hl]
    | create s loc hpc hs hl hi hv => simp [Spends, hpc, lossesLeft, stale, newTrial, Trial.new]
    | claimOk id h hpc hv =>
      have : h.cur.state ≠ .pending := by
        rcases hn id h hpc hv with h' | h'
        · exact h'
        · have h1 := congrArg (fun d => (d id).next) h'
          simp at h1
      simp [Spends, hpc, lossesLeft, stale, this]
    | claimLost id h pc' n hpc hv ho =>
      rcases ho with ⟨rfl, m, h1, h2, rfl⟩ | rfl | rfl
      · simp [Spends, hpc, lossesLeft, h1, stale]; omega
      · simp [Spends, hpc]
      · simp [Spends, hpc]
    | evalErr id h e hpc he => simp [Spends, hpc]
    | evalOk id h t r hpc he => simp [Spends, hpc, lossesLeft, stale]
    | reportOk id h t r hpc hv => simp [Spends, hpc, lossesLeft, stale]
    | budget t r pc' hpc ho =>
      rcases ho with ⟨rfl, _⟩ | ⟨_, _, rfl⟩ <;> simp [Spends, hpc, lossesLeft, stale]
    | logErr t r e hpc => simp [Spends, hpc, lossesLeft, stale]

theorem Unreported.trans (C : Coh fs W) (U : Unreported W) (t : Trans fs st W w W') :
    Unreported W' := by
  intro id t' ht hs
  have e := C.effect t
  rcases e.origin ht with ⟨t₀, h₀⟩ | ⟨_, hr⟩
  · obtain ⟨t₁, h₁, _, _, hch⟩ := e.change C h₀
    rw [h₁] at ht
    cases ht
    rcases hch with rfl | ⟨now, rfl, _⟩ | ⟨_, r, _, hst, _⟩
    · exact U id _ h₀ hs
    · simp [Trial.setEvaluating] at hs
    · rw [hs] at hst
      cases hra : r.reportedAs <;> simp [hra, ReportedAs.state] at hst
  · exact hr

end

/-- The allowances when every worker has a limit on the total number. -/
def totalScheme (fs st) (n : Nat) (inc : Bool) (N : Nat → Nat)
    (hN : ∀ w < n, (st w).maxEvalsTotal = some (N w) ∧ (st w).includeInProgress = inc) :
    Scheme fs st n where
  m W w := lossesLeft W (W.worker w)
  m' _ _ := 10
  u W := 2 * (total N n - W.tally inc) + total (fun w => part inc (N w) W (W.worker w).pc) n
  c := 21
  Inv W := Coh fs W ∧ Unreported W
  le W w _ := ⟨lossesLeft_le W _, by omega⟩
  init := ⟨Coh.init fs, by simp [Unreported, Disk.empty]⟩
  inv W w W' _ I t := ⟨I.1.trans t, I.2.trans I.1 t⟩
  pay W w W' hw I t := by
    have hle : N w ≤ total N n :=
      Finset.single_le_sum (f := N) (fun _ _ => Nat.zero_le _) (Finset.mem_range.mpr hw)
    have hoth : ∀ v, v ≠ w → part inc (N v) W' (W'.worker v).pc ≤ part inc (N v) W (W.worker v).pc :=
      fun v hv => part_other t I.1 hv
    rcases part_own t I.1 I.2 (hN w hw).1 (hN w hw).2 hle with h | ⟨h, hn⟩
    · left
      have := total_add_le (f := fun w => part inc (N w) W' (W'.worker w).pc)
        (g := fun w => part inc (N w) W (W.worker w).pc)
        (c := 2 * (total N n - W'.tally inc) + 1) (d := 2 * (total N n - W.tally inc)) hw hoth
        (by omega)
      omega
    · right
      refine ⟨total_add_le hw hoth h, fun v hv => ⟨?_, le_refl _⟩, spends_total t hn⟩
      simp only [lossesLeft, t.other hv]
      have key := stale_mono (touched_of_effect (I.1.effect t) hn) (W.worker v).pc
      by_cases h1 : stale W' (W.worker v).pc = true
      · simp [h1, key h1]
      · simp [h1]

end Neps.Run
