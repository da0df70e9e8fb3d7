import Verif.Run.Limits
import Mathlib.Algebra.BigOperators.Group.List.Basic

/-!
# Invariants about the limits on totals
-/

namespace Neps.Run

open Neps.Store (Disk Handle)

/-- How a transition changes the list of readable trials. -/
inductive Changes (W W' : World) (w : Nat) : Prop
  | same : W'.trials = W.trials → (∀ id, W.stored id = none ∨ W'.stored id = W.stored id) →
      Changes W W' w
  | added (id t) : (W.worker w).pc = .sample → (W'.worker w).pc ≠ .sample →
      W'.trials = W.trials ++ [t] → t.state = .pending → t.report = none →
      id ∉ W.ids → (∀ id', id' ≠ id → W'.stored id' = W.stored id') → Changes W W' w
  | claimed (id l₁ l₂ h now) : (W.worker w).pc = .claim id h →
      W.trials = l₁ ++ h.cur :: l₂ →
      W'.trials = l₁ ++ h.cur.setEvaluating now (workerName w) :: l₂ →
      W.stored id = some h.cur → W'.stored id = some (h.cur.setEvaluating now (workerName w)) →
      (∀ id', id' ≠ id → W'.stored id' = W.stored id') → Changes W W' w
  | reported (id l₁ l₂ h t r) : (W.worker w).pc = .report id h t r → h.cur.state = .evaluating →
      W.trials = l₁ ++ h.cur :: l₂ →
      W'.trials = l₁ ++ { t with report := some r } :: l₂ →
      W.stored id = some h.cur → W'.stored id = some { t with report := some r } →
      (∀ id', id' ≠ id → W'.stored id' = W.stored id') → Changes W W' w

theorem stored_congr {W W' : World} {id : String} (h : W'.disk id = W.disk id) :
    W'.stored id = W.stored id := by
  unfold World.stored; rw [h]

theorem stored_none_of_not_mem {fs W id} (C : Coh fs W) (h : id ∉ W.ids) : W.stored id = none := by
  cases hs : W.stored id with
  | none => rfl
  | some t =>
    have := (stored_eq_some.mp hs).2
    rw [(C.fresh id h).2] at this
    simp at this

theorem trials_replace {fs} {W W' : World} {id t t'} (C : Coh fs W) (hids : W'.ids = W.ids) (hmem : id ∈ W.ids)
    (h1 : W.stored id = some t) (h2 : W'.stored id = some t')
    (h3 : ∀ id', id' ≠ id → W'.stored id' = W.stored id') :
    ∃ l₁ l₂, W.trials = l₁ ++ t :: l₂ ∧ W'.trials = l₁ ++ t' :: l₂ := by
  obtain ⟨a, b, hab⟩ := List.append_of_mem hmem
  have hnd := C.nodup
  rw [hab, List.nodup_append] at hnd
  obtain ⟨_, hb, hdis⟩ := hnd
  have ha : ∀ x ∈ a, x ≠ id := fun x hx => hdis x hx id (by simp)
  have hb' : ∀ x ∈ b, x ≠ id := fun x hx e => (List.nodup_cons.mp hb).1 (e ▸ hx)
  refine ⟨a.filterMap W.stored, b.filterMap W.stored, ?_, ?_⟩
  · simp [World.trials, hab, List.filterMap_append, h1]
  · have ea : a.filterMap W'.stored = a.filterMap W.stored :=
      List.filterMap_congr (fun x hx => h3 x (ha x hx))
    have eb : b.filterMap W'.stored = b.filterMap W.stored :=
      List.filterMap_congr (fun x hx => h3 x (hb' x hx))
    simp [World.trials, hids, hab, List.filterMap_append, h2, ea, eb]

theorem Effect.changes {fs W w W'} (C : Coh fs W) (e : Effect fs W w W') : Changes W W' w := by
  cases e with
  | none hids hdisk hc =>
    have : W'.stored = W.stored := by
      funext id; exact stored_congr (by rw [hdisk])
    exact .same (by simp [World.trials, hids, this]) (fun id => Or.inr (by rw [this]))
  | created id t hi hids hdisk hs hr hn hc hh hsm =>
    have h1 : W'.stored id = some t := stored_eq_some.mpr (by rw [hdisk]; simp)
    have h2 : ∀ id', id' ≠ id → W'.stored id' = W.stored id' := by
      intro id' e; exact stored_congr (by rw [hdisk]; simp [e])
    refine .added id t hsm (by rintro e; rw [e] at hh; simp [PC.handle] at hh) ?_ hs hr hi h2
    have e : W.ids.filterMap W'.stored = W.ids.filterMap W.stored :=
      List.filterMap_congr (fun x hx => h2 x (fun e => hi (e ▸ hx)))
    simp [World.trials, hids, List.filterMap_append, e, h1]
  | torn id v n hi hids hdisk hc =>
    have h1 : W'.stored id = Option.none := by
      cases hs : W'.stored id with
      | none => rfl
      | some t =>
        have := (stored_eq_some.mp hs).2
        rw [hdisk] at this
        simp at this
    have h2 : ∀ id', id' ≠ id → W'.stored id' = W.stored id' := by
      intro id' e; exact stored_congr (by rw [hdisk]; simp [e])
    refine .same ?_ ?_
    · have e : W.ids.filterMap W'.stored = W.ids.filterMap W.stored :=
        List.filterMap_congr (fun x hx => h2 x (fun e => hi (e ▸ hx)))
      simp [World.trials, hids, List.filterMap_append, e, h1]
    · intro id'
      by_cases e : id' = id
      · subst e; exact Or.inl (stored_none_of_not_mem C hi)
      · exact Or.inr (h2 id' e)
  | claimed id h now hi hpc hv hd hids hdisk hc =>
    have h0 : W.stored id = some h.cur := stored_eq_some.mpr ⟨⟨_, hv⟩, hd⟩
    have h1 : W'.stored id = some (h.cur.setEvaluating now (workerName w)) :=
      stored_eq_some.mpr (by rw [hdisk]; simp)
    have h2 : ∀ id', id' ≠ id → W'.stored id' = W.stored id' := by
      intro id' e; exact stored_congr (by rw [hdisk]; simp [e])
    obtain ⟨l₁, l₂, e1, e2⟩ := trials_replace C hids hi h0 h1 h2
    exact .claimed id l₁ l₂ h now hpc e1 e2 h0 h1 h2
  | reported id h t r hi hpc hv hd hs hsp hst hid hids hdisk hc =>
    have h0 : W.stored id = some h.cur := stored_eq_some.mpr ⟨⟨_, hv⟩, hd⟩
    have h1 : W'.stored id = some { t with report := some r } :=
      stored_eq_some.mpr (by rw [hdisk]; simp)
    have h2 : ∀ id', id' ≠ id → W'.stored id' = W.stored id' := by
      intro id' e; exact stored_congr (by rw [hdisk]; simp [e])
    obtain ⟨l₁, l₂, e1, e2⟩ := trials_replace C hids hi h0 h1 h2
    exact .reported id l₁ l₂ h t r hpc hs e1 e2 h0 h1 h2

/-! ## Several workers -/

/-- Number of started trials. -/
def World.started (W : World) : Nat := W.trials.countP counted

/-- The trial stored under `id` is started. -/
def World.startedId (W : World) (id : String) : Bool :=
  match W.stored id with
  | some t => counted t
  | none => false

theorem countP_filterMap_stored (W : World) (l : List String) :
    (l.filterMap W.stored).countP counted = l.countP W.startedId := by
  induction l with
  | nil => rfl
  | cons id l ih =>
    rw [List.countP_cons]
    cases h : W.stored id with
    | none => simp [h, World.startedId, ih]
    | some t => simp [h, World.startedId, List.countP_cons, ih]

theorem started_eq (W : World) : W.started = W.ids.countP W.startedId :=
  countP_filterMap_stored W W.ids

/-- A worker that may still start a trial without another look at the limit `N`. -/
def armed (W : World) (N : Nat) (w : Nat) : Bool :=
  match (W.worker w).pc with
  | .sweep todo seen => decide (seen.countP counted + todo.countP W.startedId < N)
  | .pendList | .pend _ _ | .fetch _ | .sample | .claim _ _ => true
  | _ => false

def armedCount (W : World) (N k : Nat) : Nat := (List.range k).countP (armed W N)

theorem armedCount_le (W : World) (N k : Nat) : armedCount W N k ≤ k := by
  have := List.countP_le_length (p := armed W N) (l := List.range k)
  simpa [armedCount] using this

theorem armedCount_mono {W W' : World} {N k : Nat}
    (h : ∀ w, armed W' N w = true → armed W N w = true) : armedCount W' N k ≤ armedCount W N k :=
  List.countP_mono_left (fun w _ hw => h w hw)

theorem countP_lt {p q : Nat → Bool} {l : List Nat} {a : Nat} (hm : a ∈ l)
    (h : ∀ x, p x = true → q x = true) (hp : p a = false) (hq : q a = true) :
    l.countP p + 1 ≤ l.countP q := by
  induction l with
  | nil => simp at hm
  | cons b l ih =>
    simp only [List.countP_cons]
    have hle : l.countP p ≤ l.countP q := List.countP_mono_left (fun x _ hx => h x hx)
    rcases List.mem_cons.mp hm with rfl | hm
    · simp only [hp, hq, if_true]
      simp only [Bool.false_eq_true, if_false]
      omega
    · have := ih hm
      have hb : (if p b = true then 1 else 0) ≤ (if q b = true then 1 else 0) := by
        cases hpb : p b with
        | false => simp
        | true => simp [h b hpb]
      omega

theorem armedCount_drop {W W' : World} {N k w : Nat} (hw : w < k)
    (h : ∀ w, armed W' N w = true → armed W N w = true) (h0 : armed W N w = true)
    (h1 : armed W' N w = false) : armedCount W' N k + 1 ≤ armedCount W N k :=
  countP_lt (List.mem_range.mpr hw) h h1 h0

theorem counted_setEvaluating (t : Trial) (now n) : counted (t.setEvaluating now n) = true := by
  simp [counted, Trial.setEvaluating]

theorem Changes.startedId_mono {W W' : World} {w : Nat} (c : Changes W W' w) {fs} (C : Coh fs W)
    (id : String) (h : W.startedId id = true) : W'.startedId id = true := by
  unfold World.startedId at h ⊢
  cases c with
  | same _ hs =>
    rcases hs id with hs | hs
    · rw [hs] at h; simp at h
    · rw [hs]; exact h
  | added id' t _ _ _ _ _ hi ho =>
    by_cases e : id = id'
    · subst e; rw [stored_none_of_not_mem C hi] at h; simp at h
    · rw [ho id e]; exact h
  | claimed id' _ _ h' now _ _ _ _ h1 ho =>
    by_cases e : id = id'
    · subst e; rw [h1]; exact counted_setEvaluating _ _ _
    · rw [ho id e]; exact h
  | reported id' _ _ h' t r _ _ _ _ _ h1 ho =>
    by_cases e : id = id'
    · subst e; rw [h1]; simp [counted]
    · rw [ho id e]; exact h

theorem Changes.started {W W' : World} {w : Nat} (c : Changes W W' w) :
    W'.started = W.started ∨
    (∃ id h, (W.worker w).pc = .claim id h) ∧ W'.started ≤ W.started + 1 := by
  cases c with
  | same h _ => left; rw [World.started, h, World.started]
  | added id t _ _ h hs hr _ _ =>
    left; rw [World.started, h, World.started]; simp [counted, hs, hr]
  | claimed id l₁ l₂ h now hpc h1 h2 _ _ _ =>
    right
    refine ⟨⟨id, h, hpc⟩, ?_⟩
    rw [World.started, h2, World.started, h1]
    simp only [List.countP_append, List.countP_cons, counted_setEvaluating, if_true]
    omega
  | reported id l₁ l₂ h t r hpc hs h1 h2 _ _ _ =>
    left
    rw [World.started, h2, World.started, h1]
    simp [counted, hs]

/-- `armed` of a worker that does not move can only go down. -/
theorem armed_other {W W' : World} {N w' : Nat} (hw : W'.worker w' = W.worker w')
    (hm : ∀ id, W.startedId id = true → W'.startedId id = true)
    (h : armed W' N w' = true) : armed W N w' = true := by
  unfold armed at h ⊢
  rw [hw] at h
  split at h
  · next todo seen hpc =>
    have := List.countP_mono_left (l := todo) (fun x _ hx => hm x hx)
    simp only [decide_eq_true_eq] at h ⊢
    omega
  all_goals first | rfl | simp at h

theorem load_ok_startedId {W : World} {id h} (e : Store.load (W.disk id) = .ok h) :
    W.startedId id = counted h.cur := by
  simp [World.startedId, World.stored, e]

/-- The main invariant for `max_evaluations_total` with `k` workers. -/
def TotalInv (W : World) (N k : Nat) : Prop := W.started + armedCount W N k + 1 ≤ N + k

theorem TotalInv.trans {fs st W w W' N k} (C : Coh fs W) (I : TotalInv W N k)
    (hs : (st w).maxEvalsTotal = some N) (hinc : (st w).includeInProgress = true)
    (hw : w < k) (t : Trans fs st W w W') : TotalInv W' N k := by
  have hch := (C.effect t).changes C
  have hmono : ∀ id, W.startedId id = true → W'.startedId id = true :=
    fun id => hch.startedId_mono C id
  have hoth : ∀ w', w' ≠ w → armed W' N w' = true → armed W N w' = true :=
    fun w' e => armed_other (t.other e) hmono
  have hlim : (st w).hasGlobalLimit = true := by simp [Settings.hasGlobalLimit, hs]
  -- if the acting worker does not become armed, it is enough that `started` grows only on a claim
  have easy : armed W' N w = false ∨ armed W N w = true →
      (W'.started = W.started ∨ armed W N w = true ∧ armed W' N w = false ∧
        W'.started ≤ W.started + 1) → TotalInv W' N k := by
    intro ha hst
    have hall : ∀ w', armed W' N w' = true → armed W N w' = true := by
      intro w' h
      by_cases e : w' = w
      · subst e
        rcases ha with ha | ha
        · rw [ha] at h; simp at h
        · exact ha
      · exact hoth w' e h
    unfold TotalInv at I ⊢
    rcases hst with h | ⟨h0, h1, h⟩
    · have := armedCount_mono (k := k) hall
      omega
    · have := armedCount_drop hw hall h0 h1
      omega
  have hstarted := hch.started
  have nostart : (∀ id h, (W.worker w).pc ≠ .claim id h) → W'.started = W.started := by
    intro hn
    rcases hstarted with h | ⟨⟨id, h, hpc⟩, _⟩
    · exact h
    · exact absurd hpc (hn id h)
  cases t with
  | idle => exact I
  | kill =>
    refine easy ?_ (Or.inl ?_)
    · cases h : armed W N w with
      | true => exact Or.inr rfl
      | false => left; rw [← h]; simp only [armed, killW_worker, if_true]; rfl
    · rfl
  | torn s loc v n hal hpc hl hi hvn =>
    exact easy (Or.inr (by simp [armed, hpc])) (Or.inl (nostart (by simp [hpc])))
  | step c _ hal s =>
    cases s with
    | idle => exact I
    | move pc' m =>
      have hdisk : (W.goto w pc').stored = W.stored := rfl
      have hstart : (W.goto w pc').started = W.started := rfl
      have hsid : (W.goto w pc').startedId = W.startedId := rfl
      generalize hpc : (W.worker w).pc = pc at m
      cases m
      case topPend wall hh hr hg => rw [hlim] at hg; simp at hg
      case errPend hh hg => rw [hlim] at hg; simp at hg
      case sweepList l hl =>
        unfold TotalInv at I ⊢
        by_cases hN : W.started < N
        · have := armedCount_le (W.goto w (.sweep l [])) N k
          rw [hstart]
          omega
        · refine easy (Or.inl ?_) (Or.inl rfl)
          have hle : N ≤ l.countP W.startedId := by
            rw [hl.countP_eq, ← started_eq W]; omega
          simp only [armed, goto_worker, if_true, hsid, decide_eq_false_iff_not]
          omega
      case sweepPend seen hh =>
        refine easy (Or.inr ?_) (Or.inl rfl)
        simp only [armed, hpc, List.countP_nil, Nat.add_zero]
        apply decide_eq_true
        by_contra hc
        have : reachedN (st w).maxEvalsTotal (evalCount (st w) seen) = true := by
          simp only [reachedN, hs, evalCount, hinc, if_true, decide_eq_true_eq]
          exact Nat.le_of_not_lt hc
        simp [globalCheck, this] at hh
      case sweepOk id todo seen h hl =>
        refine easy ?_ (Or.inl rfl)
        cases ha : armed W N w with
        | true => exact Or.inr rfl
        | false =>
          left
          rw [← ha]
          simp only [armed, goto_worker, if_true, hpc, hsid, List.countP_append, List.countP_cons,
            List.countP_nil, load_ok_startedId hl]
          congr 1
          apply propext
          constructor <;> intro h <;> omega
      all_goals
        refine easy ?_ (Or.inl rfl)
        solve
          | (right; simp only [armed, hpc])
          | (left; simp only [armed, goto_worker, if_true])
    | fetch id h hpc hl =>
      exact easy (Or.inr (by simp [armed, hpc])) (Or.inl (nostart (by simp [hpc])))
    | create s loc hpc hs hl hi hv =>
      exact easy (Or.inr (by simp [armed, hpc])) (Or.inl (nostart (by simp [hpc])))
    | claimOk id h hpc hv =>
      refine easy (Or.inr (by simp [armed, hpc])) ?_
      rcases hstarted with h' | ⟨_, h'⟩
      · exact Or.inl h'
      · exact Or.inr ⟨by simp [armed, hpc], by simp [armed], h'⟩
    | claimLost id h pc' n hpc hv ho =>
      exact easy (Or.inr (by simp [armed, hpc])) (Or.inl rfl)
    | evalErr id h e hpc he => exact easy (Or.inl (by simp [armed])) (Or.inl rfl)
    | evalOk id h t r hpc he => exact easy (Or.inl (by simp [armed])) (Or.inl rfl)
    | reportOk id h t r hpc hv =>
      exact easy (Or.inl (by simp [armed])) (Or.inl (nostart (by simp [hpc])))
    | budget t r pc' hpc ho =>
      refine easy (Or.inl ?_) (Or.inl rfl)
      rcases ho with ⟨rfl, _⟩ | ⟨_, _, rfl⟩ <;> simp [armed]
    | logErr t r e hpc => exact easy (Or.inl (by simp [armed])) (Or.inl rfl)

theorem totalInv_run {fs st N k} (as : List Act) (hby : OnlyBy (· < k) as) (hk : 0 < k)
    (hs : ∀ w < k, (st w).maxEvalsTotal = some N ∧ (st w).includeInProgress = true) :
    TotalInv (run fs st {} as) N k := by
  have key : ∀ (as : List Act), OnlyBy (· < k) as → ∀ W, Coh fs W → TotalInv W N k →
      TotalInv (run fs st W as) N k := by
    intro as
    induction as with
    | nil => intro _ W _ I; exact I
    | cons a as ih =>
      intro hby W C I
      have ha : a.who < k := hby a (by simp)
      have t := act_trans fs st W a
      exact ih (fun b hb => hby b (by simp [hb])) _ (C.trans t)
        (I.trans C (hs _ ha).1 (hs _ ha).2 ha t)
  refine key as hby {} (Coh.init fs) ?_
  have h0 : armedCount ({} : World) N k = 0 := by
    simp [armedCount, armed]
  have h1 : ({} : World).started = 0 := by simp [World.started, World.trials]
  unfold TotalInv
  omega

/-! ## One worker alone, after any history -/

/-- The worker has swept all trials and not started a new one yet. -/
def PC.swept : PC → Bool
  | .pendList | .pend _ _ | .fetch _ | .sample | .claim _ _ => true
  | _ => false

/-- The worker is evaluating a trial, or has a result it has not stored yet. -/
def PC.busy : PC → Bool
  | .eval _ _ | .report _ _ _ _ => true
  | _ => false

/-- The sum of the evaluation times of trials. -/
def timeSum (ts : List Trial) : PyFloat := (ts.map trialTime).sum

/-- What a worker acting alone knows about the totals. -/
structure AloneInv (s : Settings) (W : World) (w : Nat) : Prop where
  sweep : ∀ todo seen, (W.worker w).pc = .sweep todo seen →
    ∃ done, (done ++ todo).Perm W.ids ∧ done.filterMap W.stored = seen ∧
      ∀ id ∈ done, (W.stored id).isSome
  swept : (W.worker w).pc.swept = true → globalCheck s W.trials = none
  busy : (W.worker w).pc.busy = true → reached s.maxCostTotal (costSum W.trials) = false ∧
    reached s.maxEvalTimeTotal (timeSum W.trials) = false ∧
    (s.includeInProgress = false → reachedN s.maxEvalsTotal (evalCount s W.trials) = false)
  total : ∀ N, s.maxEvalsTotal = some N → evalCount s W.trials ≤ N
  halted : (W.worker w).pc = .stopped .evalsTotal →
    reachedN s.maxEvalsTotal (evalCount s W.trials) = true

theorem evalCount_perm {s} {l₁ l₂ : List Trial} (h : l₁.Perm l₂) :
    evalCount s l₁ = evalCount s l₂ := by
  unfold evalCount; split <;> exact h.countP_eq _

theorem costSum_perm {l₁ l₂ : List Trial} (h : l₁.Perm l₂) : costSum l₁ = costSum l₂ :=
  (h.map _).sum_eq

theorem timeSum_perm {l₁ l₂ : List Trial} (h : l₁.Perm l₂) : timeSum l₁ = timeSum l₂ :=
  (h.map _).sum_eq

theorem globalCheck_eq (s : Settings) (l : List Trial) : globalCheck s l =
    if reachedN s.maxEvalsTotal (evalCount s l) then some .evalsTotal
    else if reached s.maxCostTotal (costSum l) then some .costTotal
    else if reached s.maxEvalTimeTotal (timeSum l) then some .evalTimeTotal
    else none := rfl

theorem globalCheck_perm {s} {l₁ l₂ : List Trial} (h : l₁.Perm l₂) :
    globalCheck s l₁ = globalCheck s l₂ := by
  rw [globalCheck_eq, globalCheck_eq, evalCount_perm h, costSum_perm h, timeSum_perm h]

theorem globalCheck_none {s l} (h : globalCheck s l = none) :
    reachedN s.maxEvalsTotal (evalCount s l) = false ∧
    reached s.maxCostTotal (costSum l) = false ∧
    reached s.maxEvalTimeTotal (timeSum l) = false := by
  rw [globalCheck_eq] at h
  split at h
  · simp at h
  · split at h
    · simp at h
    · split at h
      · simp at h
      · simp_all

theorem globalCheck_evalsTotal {s l} (h : globalCheck s l = some .evalsTotal) :
    reachedN s.maxEvalsTotal (evalCount s l) = true := by
  rw [globalCheck_eq] at h
  split at h
  · assumption
  · split at h
    · simp at h
    · split at h <;> simp at h

theorem localCheck_ne {s err count cost wall evalTime h}
    (e : localCheck s err count cost wall evalTime = some h) : h ≠ .evalsTotal := by
  rintro rfl
  unfold localCheck at e
  split at e
  · simp at e
  · simp at e
  · simp at e
  · simp at e
  · split at e
    · simp at e
    · split at e
      · simp at e
      · split at e
        · simp at e
        · split at e <;> simp at e

theorem sharedErrCheck_ne' {s errs h} (e : sharedErrCheck s errs = some h) : h ≠ .evalsTotal := by
  rintro rfl
  unfold sharedErrCheck at e
  split at e
  · split at e <;> simp at e
  · split at e <;> simp at e
  · simp at e

theorem trialCost_eq {t t' : Trial} (h : t.report = t'.report) : trialCost t = trialCost t' := by
  simp [trialCost, h]

theorem trialTime_eq {t t' : Trial} (h : t.report = t'.report) : trialTime t = trialTime t' := by
  simp [trialTime, h]

theorem costSum_replace (l₁ l₂ : List Trial) {t t' : Trial} (h : t'.report = t.report) :
    costSum (l₁ ++ t' :: l₂) = costSum (l₁ ++ t :: l₂) := by
  simp [costSum, trialCost_eq h]

theorem timeSum_replace (l₁ l₂ : List Trial) {t t' : Trial} (h : t'.report = t.report) :
    timeSum (l₁ ++ t' :: l₂) = timeSum (l₁ ++ t :: l₂) := by
  simp [timeSum, trialTime_eq h]

theorem AloneInv.trans {fs st W w W'} (C : Coh fs W) (I : AloneInv (st w) W w)
    (hlim : (st w).hasGlobalLimit = true) (t : Trans fs st W w W') : AloneInv (st w) W' w := by
  have hch := (C.effect t).changes C
  -- transitions that do not change the trials
  have quiet : W'.trials = W.trials →
      (∀ todo seen, (W'.worker w).pc ≠ .sweep todo seen) →
      ((W'.worker w).pc.swept = true → (W.worker w).pc.swept = true) →
      ((W'.worker w).pc.busy = true → (W.worker w).pc.busy = true) →
      ((W'.worker w).pc = .stopped .evalsTotal → (W.worker w).pc = .stopped .evalsTotal) →
      AloneInv (st w) W' w := by
    intro ht h1 h2 h3 h4
    exact ⟨fun a b h => absurd h (h1 a b), fun h => by rw [ht]; exact I.swept (h2 h),
      fun h => by rw [ht]; exact I.busy (h3 h), by rw [ht]; exact I.total,
      fun h => by rw [ht]; exact I.halted (h4 h)⟩
  cases t with
  | idle => exact I
  | kill =>
    have hpc : ((W.killW w).worker w).pc = (W.worker w).pc := by simp
    exact ⟨by rw [hpc]; exact I.sweep, by rw [hpc]; exact I.swept, by rw [hpc]; exact I.busy,
      I.total, by rw [hpc]; exact I.halted⟩
  | torn s loc v n hal hpc hl hi hvn =>
    have ht : World.trials (({ (W.setDisk s.id ⟨v, (W.disk s.id).data, n⟩) with
        ids := W.ids ++ [s.id] }).killW w) = W.trials := by
      cases hch with
      | same h _ => exact h
      | added id t _ hne => exact absurd (by simp [hpc]) hne
      | claimed id l₁ l₂ h now hpc' => rw [hpc] at hpc'; simp at hpc'
      | reported id l₁ l₂ h t r hpc' => rw [hpc] at hpc'; simp at hpc'
    exact quiet ht (by simp [hpc]) (by simp) (by simp) (by simp)
  | step c _ hal s =>
    cases s with
    | idle => exact I
    | move pc' m =>
      have hst : (W.goto w pc').trials = W.trials := rfl
      have hstored : (W.goto w pc').stored = W.stored := rfl
      generalize hpc : (W.worker w).pc = pc at m
      cases m
      case topPend wall hh hr hg => rw [hlim] at hg; simp at hg
      case errPend hh hg => rw [hlim] at hg; simp at hg
      case haltTop wall h hh hr =>
        exact quiet rfl (by simp) (by simp [PC.swept]) (by simp [PC.busy])
          (by simp [localCheck_ne hh])
      case haltErr h hh hr =>
        exact quiet rfl (by simp) (by simp [PC.swept]) (by simp [PC.busy])
          (by simp [sharedErrCheck_ne' hh])
      case sweepList l hl =>
        refine ⟨?_, by simp [PC.swept], by simp [PC.busy], I.total, by simp⟩
        intro todo seen h
        simp only [goto_worker, if_true, PC.sweep.injEq] at h
        obtain ⟨rfl, rfl⟩ := h
        exact ⟨[], by simpa using hl, rfl, by simp⟩
      case sweepHalt seen h hh =>
        obtain ⟨done, hp, hs, _⟩ := I.sweep [] seen hpc
        rw [List.append_nil] at hp
        have hperm : seen.Perm W.trials := hs ▸ hp.filterMap _
        refine ⟨by simp, by simp [PC.swept], by simp [PC.busy], I.total, ?_⟩
        intro h'
        simp only [goto_worker, if_true, PC.stopped.injEq] at h'
        subst h'
        rw [globalCheck_perm hperm] at hh
        exact globalCheck_evalsTotal hh
      case sweepPend seen hh =>
        obtain ⟨done, hp, hs, _⟩ := I.sweep [] seen hpc
        rw [List.append_nil] at hp
        have hperm : seen.Perm W.trials := hs ▸ hp.filterMap _
        refine ⟨by simp, ?_, by simp [PC.busy], I.total, by simp⟩
        intro _
        rw [hst, ← globalCheck_perm hperm]
        exact hh
      case sweepOk id todo seen h hl =>
        obtain ⟨done, hp, hs, hsome⟩ := I.sweep _ seen hpc
        have hload : W.stored id = some h.cur := by simp [World.stored, hl]
        refine ⟨?_, by simp [PC.swept], by simp [PC.busy], I.total, by simp⟩
        intro todo' seen' h'
        simp only [goto_worker, if_true, PC.sweep.injEq] at h'
        obtain ⟨rfl, rfl⟩ := h'
        refine ⟨done ++ [id], by simpa using hp, ?_, ?_⟩
        · rw [hstored, List.filterMap_append, hs]; simp [hload]
        · intro x hx
          rw [hstored]
          simp only [List.mem_append, List.mem_singleton] at hx
          rcases hx with hx | rfl
          · exact hsome x hx
          · simp [hload]
      all_goals
        refine quiet rfl (by simp) ?_ ?_ (by simp)
        · simp [PC.swept, hpc]
        · simp [PC.busy]
    | fetch id h hpc hl =>
      exact quiet rfl (by simp) (by simp [PC.swept, hpc]) (by simp [PC.busy]) (by simp)
    | create s loc hpc hs hl hi hv =>
      have hgc := I.swept (by rw [hpc]; rfl)
      cases hch with
      | same h _ => exact quiet h (by simp) (by simp [PC.swept, hpc]) (by simp [PC.busy]) (by simp)
      | added id t _ _ h hst hr _ _ =>
        have hc1 : counted t = false := by simp [counted, hst, hr]
        have e1 : evalCount (st w) (W.trials ++ [t]) = evalCount (st w) W.trials := by
          unfold evalCount; split <;> simp [hc1, hr]
        have e2 : costSum (W.trials ++ [t]) = costSum W.trials := by
          simp [costSum, trialCost, hr]
        have e3 : timeSum (W.trials ++ [t]) = timeSum W.trials := by
          simp [timeSum, trialTime, hr]
        refine ⟨by simp, ?_, by simp [PC.busy], ?_, by simp⟩
        · intro _
          rw [h, globalCheck_eq, e1, e2, e3, ← globalCheck_eq]
          exact hgc
        · rw [h, e1]; exact I.total
      | claimed id l₁ l₂ h now hpc' => rw [hpc] at hpc'; simp at hpc'
      | reported id l₁ l₂ h t r hpc' => rw [hpc] at hpc'; simp at hpc'
    | claimOk id h hpc hv =>
      obtain ⟨g1, g2, g3⟩ := globalCheck_none (I.swept (by rw [hpc]; rfl))
      cases hch with
      | same h _ =>
        refine ⟨by simp, by simp [PC.swept], ?_, by rw [h]; exact I.total, by simp⟩
        intro _
        rw [h]
        exact ⟨g2, g3, fun _ => g1⟩
      | added id' t hsm => rw [hpc] at hsm; simp at hsm
      | claimed id' l₁ l₂ h' now hpc' h1 h2 _ _ _ =>
        have e2 := costSum_replace l₁ l₂ (t := h'.cur)
          (t' := h'.cur.setEvaluating now (workerName w)) rfl
        have e3 := timeSum_replace l₁ l₂ (t := h'.cur)
          (t' := h'.cur.setEvaluating now (workerName w)) rfl
        rw [← h1, ← h2] at e2 e3
        have e1 : (st w).includeInProgress = false →
            evalCount (st w) (l₁ ++ h'.cur.setEvaluating now (workerName w) :: l₂) =
              evalCount (st w) (l₁ ++ h'.cur :: l₂) := by
          intro hi
          simp [evalCount, hi, Trial.setEvaluating, List.countP_cons]
        have e1' : evalCount (st w) (l₁ ++ h'.cur.setEvaluating now (workerName w) :: l₂) ≤
              evalCount (st w) (l₁ ++ h'.cur :: l₂) + 1 := by
          unfold evalCount
          split
          · simp only [List.countP_append, List.countP_cons]
            split <;> split <;> omega
          · simp [Trial.setEvaluating, List.countP_cons]
        rw [← h1, ← h2] at e1 e1'
        refine ⟨by simp, by simp [PC.swept], ?_, ?_, by simp⟩
        · intro _
          rw [e2, e3]
          exact ⟨g2, g3, fun hi => by rw [e1 hi]; exact g1⟩
        · intro N hN
          have : evalCount (st w) W.trials < N := by
            simpa [reachedN, hN] using g1
          omega
      | reported id l₁ l₂ h t r hpc' => rw [hpc] at hpc'; simp at hpc'
    | claimLost id h pc' n hpc hv ho =>
      rcases ho with ⟨rfl, _⟩ | rfl | rfl <;>
      exact quiet rfl (by simp) (by simp [PC.swept]) (by simp [PC.busy]) (by simp)
    | evalErr id h e hpc he =>
      exact quiet rfl (by simp) (by simp [PC.swept]) (by simp [PC.busy]) (by simp)
    | evalOk id h t r hpc he =>
      exact quiet rfl (by simp) (by simp [PC.swept]) (by simp [PC.busy, hpc]) (by simp)
    | reportOk id h t r hpc hv =>
      obtain ⟨_, _, g⟩ := I.busy (by rw [hpc]; rfl)
      cases hch with
      | same h _ => exact quiet h (by simp) (by simp [PC.swept]) (by simp [PC.busy]) (by simp)
      | added id' t hsm => rw [hpc] at hsm; simp at hsm
      | claimed id l₁ l₂ h now hpc' => rw [hpc] at hpc'; simp at hpc'
      | reported id' l₁ l₂ h' t' r' hpc' hs h1 h2 _ _ _ =>
        refine ⟨by simp, by simp [PC.swept], by simp [PC.busy], ?_, by simp⟩
        intro N hN
        have hT := I.total N hN
        rw [h1] at hT
        rw [h2]
        cases hi : (st w).includeInProgress with
        | true =>
          simp only [evalCount, hi, if_true, List.countP_append, List.countP_cons, counted] at hT ⊢
          simpa [hs] using hT
        | false =>
          have hlt : evalCount (st w) W.trials < N := by simpa [reachedN, hN] using g hi
          rw [h1] at hlt
          simp only [evalCount, hi, Bool.false_eq_true, if_false, List.countP_append,
            List.countP_cons] at hlt ⊢
          simp only [Option.isSome_some, if_true]
          omega
    | budget t r pc' hpc ho =>
      rcases ho with ⟨rfl, _⟩ | ⟨_, _, rfl⟩ <;>
      exact quiet rfl (by simp) (by simp [PC.swept]) (by simp [PC.busy]) (by simp)
    | logErr t r e hpc =>
      exact quiet rfl (by simp) (by simp [PC.swept]) (by simp [PC.busy]) (by simp)

end Neps.Run
