import Verif.Run.Model

/-!
# Helper lemmas about the worker transition system

`Step` lists the transitions of `stepW` and `act`; the invariants are proved by cases on it.
-/

namespace Neps.Run

open Neps.Store (Disk Handle)

section Proj
variable (W : World) (w : Nat) (x : Worker) (pc : PC) (e : Event) (id : String) (d : Disk Trial)

@[simp] theorem setW_ids : (W.setW w x).ids = W.ids := rfl
@[simp] theorem setW_disk : (W.setW w x).disk = W.disk := rfl
@[simp] theorem setW_budget : (W.setW w x).budget = W.budget := rfl
@[simp] theorem setW_errs : (W.setW w x).errs = W.errs := rfl
@[simp] theorem setW_log : (W.setW w x).log = W.log := rfl
@[simp] theorem setW_worker : (W.setW w x).worker = fun w' => if w' = w then x else W.worker w' :=
  rfl
@[simp] theorem goto_ids : (W.goto w pc).ids = W.ids := rfl
@[simp] theorem goto_disk : (W.goto w pc).disk = W.disk := rfl
@[simp] theorem goto_budget : (W.goto w pc).budget = W.budget := rfl
@[simp] theorem goto_errs : (W.goto w pc).errs = W.errs := rfl
@[simp] theorem goto_log : (W.goto w pc).log = W.log := rfl
@[simp] theorem goto_worker : (W.goto w pc).worker =
    fun w' => if w' = w then { W.worker w with pc := pc } else W.worker w' := rfl
@[simp] theorem emit_ids : (W.emit e).ids = W.ids := rfl
@[simp] theorem emit_disk : (W.emit e).disk = W.disk := rfl
@[simp] theorem emit_budget : (W.emit e).budget = W.budget := rfl
@[simp] theorem emit_errs : (W.emit e).errs = W.errs := rfl
@[simp] theorem emit_log : (W.emit e).log = e :: W.log := rfl
@[simp] theorem emit_worker : (W.emit e).worker = W.worker := rfl
@[simp] theorem setDisk_ids : (W.setDisk id d).ids = W.ids := rfl
@[simp] theorem setDisk_disk :
    (W.setDisk id d).disk = fun id' => if id' = id then d else W.disk id' := rfl
@[simp] theorem setDisk_budget : (W.setDisk id d).budget = W.budget := rfl
@[simp] theorem setDisk_errs : (W.setDisk id d).errs = W.errs := rfl
@[simp] theorem setDisk_log : (W.setDisk id d).log = W.log := rfl
@[simp] theorem setDisk_worker : (W.setDisk id d).worker = W.worker := rfl
@[simp] theorem killW_ids : (W.killW w).ids = W.ids := rfl
@[simp] theorem killW_disk : (W.killW w).disk = W.disk := rfl
@[simp] theorem killW_budget : (W.killW w).budget = W.budget := rfl
@[simp] theorem killW_errs : (W.killW w).errs = W.errs := rfl
@[simp] theorem killW_log : (W.killW w).log = W.log := rfl
@[simp] theorem killW_worker : (W.killW w).worker =
    fun w' => if w' = w then { W.worker w with alive := false } else W.worker w' := rfl
end Proj

/-- Transitions that change nothing but the program counter of one worker, and do not take up a
trial. -/
inductive Move (st : Settings) (W : World) (x : Worker) : PC → PC → Prop
  | haltTop (wall h) : localCheck st x.err x.count x.cost wall x.evalTime = some h →
      h.raises = false → Move st W x .top (.stopped h)
  | raiseTop (wall h) : localCheck st x.err x.count x.cost wall x.evalTime = some h →
      h.raises = true → Move st W x .top (.raised .workerRaise)
  | topErrors (wall) : localCheck st x.err x.count x.cost wall x.evalTime = none →
      st.readsErrors = true → Move st W x .top .readErrors
  | topSweep (wall) : localCheck st x.err x.count x.cost wall x.evalTime = none →
      st.readsErrors = false → st.hasGlobalLimit = true → Move st W x .top .sweepList
  | topPend (wall) : localCheck st x.err x.count x.cost wall x.evalTime = none →
      st.readsErrors = false → st.hasGlobalLimit = false → Move st W x .top .pendList
  | haltErr (h) : sharedErrCheck st W.errs = some h → h.raises = false →
      Move st W x .readErrors (.stopped h)
  | raiseErr (h) : sharedErrCheck st W.errs = some h → h.raises = true →
      Move st W x .readErrors (.raised .workerRaise)
  | errSweep : sharedErrCheck st W.errs = none → st.hasGlobalLimit = true →
      Move st W x .readErrors .sweepList
  | errPend : sharedErrCheck st W.errs = none → st.hasGlobalLimit = false →
      Move st W x .readErrors .pendList
  | sweepList (l) : l.Perm W.ids → Move st W x .sweepList (.sweep l [])
  | sweepHalt (seen h) : globalCheck st seen = some h → Move st W x (.sweep [] seen) (.stopped h)
  | sweepPend (seen) : globalCheck st seen = none → Move st W x (.sweep [] seen) .pendList
  | sweepErr (id todo seen e) : Store.load (W.disk id) = .error e →
      Move st W x (.sweep (id :: todo) seen) (.raised .sweepFailed)
  | sweepOk (id todo seen h) : Store.load (W.disk id) = .ok h →
      Move st W x (.sweep (id :: todo) seen) (.sweep todo (seen ++ [h.cur]))
  | pendList (l) : l.Perm W.ids → Move st W x .pendList (.pend l [])
  | pendErr (id todo found e) : Store.load (W.disk id) = .error e →
      Move st W x (.pend (id :: todo) found) (.raised .failedToGetNext)
  | pendHit (id todo found h) : Store.load (W.disk id) = .ok h → h.cur.state = .pending →
      Move st W x (.pend (id :: todo) found)
        (.pend todo (found ++ [(id, h.cur.metadata.timeSampled)]))
  | pendMiss (id todo found h) : Store.load (W.disk id) = .ok h → h.cur.state ≠ .pending →
      Move st W x (.pend (id :: todo) found) (.pend todo found)
  | pendNone (found) : sortByTime found = [] → Move st W x (.pend [] found) .sample
  | pendSome (found id time rest) : sortByTime found = (id, time) :: rest →
      Move st W x (.pend [] found) (.fetch id)
  | fetchErr (id e) : Store.load (W.disk id) = .error e →
      Move st W x (.fetch id) (.raised .failedToGetNext)
  | sampleErr : Move st W x .sample (.raised .failedToGetNext)
  | reportErr (id h t r) : (W.disk id).ver ≠ some h.ver →
      Move st W x (.report id h t r) (.raised .reportRejected)

/-- All transitions of a live worker. -/
inductive Step (fs : String → Option PyFloat) (st : Settings) (W : World) (w : Nat) (c : Choice) :
    World → Prop
  | idle : Step fs st W w c W
  | move (pc') : Move st W (W.worker w) (W.worker w).pc pc' → Step fs st W w c (W.goto w pc')
  | fetch (id h) : (W.worker w).pc = .fetch id → Store.load (W.disk id) = .ok h →
      Step fs st W w c (W.goto w (.claim id h))
  | create (s loc) : (W.worker w).pc = .sample → c.ask = some s →
      prepareSample W s = some loc → s.id ∉ W.ids → (W.disk s.id).ver = none →
      Step fs st W w c
        (({ (W.setDisk s.id
              ⟨some (W.disk s.id).next, some (newTrial w s loc c.now), (W.disk s.id).next + 1⟩)
            with ids := W.ids ++ [s.id] }.goto w
          (.claim s.id ⟨newTrial w s loc c.now, (W.disk s.id).next⟩)).emit (.created w s.id))
  | claimOk (id h) : (W.worker w).pc = .claim id h → (W.disk id).ver = some h.ver →
      Step fs st W w c
        (((W.setDisk id ⟨some (W.disk id).next,
            some (h.cur.setEvaluating c.now (workerName w)), (W.disk id).next + 1⟩).setW w
          { W.worker w with
            pc := .eval id ⟨h.cur.setEvaluating c.now (workerName w), (W.disk id).next⟩,
            nFailed := some 0 }).emit (.claimed w id h.cur))
  | claimLost (id h pc' n) : (W.worker w).pc = .claim id h → (W.disk id).ver ≠ some h.ver →
      (pc' = .top ∧ (∃ m, (W.worker w).nFailed = some m ∧ m + 1 < 10 ∧ n = some (m + 1)) ∨
       pc' = .raised .claimFailedTooOften ∨ pc' = .raised .unboundCounter) →
      Step fs st W w c
        ((W.setW w { W.worker w with pc := pc', nFailed := n }).emit (.claimLost w id))
  | evalErr (id h e) : (W.worker w).pc = .eval id h →
      evalTrial fs h.cur st.dv c.outcome c.now c.duration = .error e →
      Step fs st W w c ((W.goto w (.raised (.evaluation e))).emit (.evaluated w id c.outcome))
  | evalOk (id h t r) : (W.worker w).pc = .eval id h →
      evalTrial fs h.cur st.dv c.outcome c.now c.duration = .ok (t, r) →
      Step fs st W w c ((W.setW w { W.worker w with
        pc := .report id h t r
        evalTime := (W.worker w).evalTime + c.duration
        count := (W.worker w).count + 1
        cost := (W.worker w).cost + r.cost.getD 0
        err := match r.err with | some e => some e | none => (W.worker w).err }).emit
          (.evaluated w id c.outcome))
  | reportOk (id h t r) : (W.worker w).pc = .report id h t r → (W.disk id).ver = some h.ver →
      Step fs st W w c
        (((W.setDisk id ⟨some (W.disk id).next, some { t with report := some r },
            (W.disk id).next + 1⟩).goto w (.budget t r)).emit (.reported w id r))
  | budget (t r pc') : (W.worker w).pc = .budget t r →
      (pc' = .top ∧ r.err = none ∨ ∃ e, r.err = some e ∧ pc' = .logErr t r e) →
      Step fs st W w c
        (({ W with budget := W.budget + r.cost.getD 0 }.goto w pc').emit (.charged w r))
  | logErr (t r e) : (W.worker w).pc = .logErr t r e →
      Step fs st W w c
        (({ W with errs := W.errs ++ [errEntry w t r e] }.goto w .top).emit
          (.logged w (errEntry w t r e)))

theorem listing_perm (W : World) (c : Choice) : (listing W c).Perm W.ids := by
  unfold listing
  split
  · next h => exact List.isPerm_iff.mp h
  · exact List.Perm.refl _

theorem put_ok {D : Type} {x : D} {h : Handle D} {d : Disk D} {h' d'}
    (e : Store.put x h d = (.ok h', d')) :
    d.ver = some h.ver ∧ h' = ⟨x, d.next⟩ ∧ d' = ⟨some d.next, some x, d.next + 1⟩ := by
  unfold Store.put at e
  split at e
  · next hv =>
    simp only [Store.bump, Store.write, Prod.mk.injEq, Except.ok.injEq] at e
    exact ⟨hv.symm, e.1.symm, e.2.symm⟩
  · simp at e

theorem put_error {D : Type} {x : D} {h : Handle D} {d : Disk D} {er d'}
    (e : Store.put x h d = (.error er, d')) : d.ver ≠ some h.ver := by
  unfold Store.put at e
  split at e
  · simp [Store.bump] at e
  · next hv => exact fun c => hv c.symm

theorem new_ok {D : Type} {x : D} {d : Disk D} {h' d'}
    (e : Store.new x d = (.ok h', d')) :
    d.ver = none ∧ h' = ⟨x, d.next⟩ ∧ d' = ⟨some d.next, some x, d.next + 1⟩ := by
  unfold Store.new at e
  split at e
  · simp at e
  · next hv =>
    simp only [Store.bump, Store.write, Prod.mk.injEq, Except.ok.injEq] at e
    exact ⟨hv, e.1.symm, e.2.symm⟩

theorem load_ok {D : Type} {d : Disk D} {h : Handle D} (e : Store.load d = .ok h) :
    d.ver = some h.ver ∧ d.data = some h.cur := by
  unfold Store.load Store.read at e
  split at e
  · simp at e
  · next v hv =>
    cases hd : d.data with
    | none => simp [hd] at e
    | some y =>
      simp only [hd, Except.ok.injEq] at e
      subst e
      exact ⟨hv, rfl⟩

theorem stepW_step (fs : String → Option PyFloat) (st : Settings) (W : World) (w : Nat)
    (c : Choice) : Step fs st W w c (stepW fs st W w c) := by
  cases hpc : (W.worker w).pc with
  | stopped h =>
    simp only [stepW, hpc]
    exact .idle
  | raised e =>
    simp only [stepW, hpc]
    exact .idle
  | top =>
    simp only [stepW, hpc]
    split
    · next h hh =>
      cases hr : h.raises with
      | true => exact .move _ (hpc ▸ .raiseTop c.wall h hh hr)
      | false => exact .move _ (hpc ▸ .haltTop c.wall h hh hr)
    · next hh =>
      cases hr : st.readsErrors with
      | true => exact .move _ (hpc ▸ .topErrors c.wall hh hr)
      | false =>
        cases hg : st.hasGlobalLimit with
        | true => exact .move _ (hpc ▸ .topSweep c.wall hh hr hg)
        | false => exact .move _ (hpc ▸ .topPend c.wall hh hr hg)
  | readErrors =>
    simp only [stepW, hpc]
    split
    · next h hh =>
      cases hr : h.raises with
      | true => exact .move _ (hpc ▸ .raiseErr h hh hr)
      | false => exact .move _ (hpc ▸ .haltErr h hh hr)
    · next hh =>
      cases hg : st.hasGlobalLimit with
      | true => exact .move _ (hpc ▸ .errSweep hh hg)
      | false => exact .move _ (hpc ▸ .errPend hh hg)
  | sweepList =>
    simp only [stepW, hpc]
    exact .move _ (hpc ▸ .sweepList _ (listing_perm W c))
  | sweep todo seen =>
    cases todo with
    | nil =>
      simp only [stepW, hpc]
      split
      · next h hh => exact .move _ (hpc ▸ .sweepHalt seen h hh)
      · next hh => exact .move _ (hpc ▸ .sweepPend seen hh)
    | cons id todo =>
      simp only [stepW, hpc]
      split
      · next e he => exact .move _ (hpc ▸ .sweepErr id todo seen e he)
      · next h hh => exact .move _ (hpc ▸ .sweepOk id todo seen h hh)
  | pendList =>
    simp only [stepW, hpc]
    exact .move _ (hpc ▸ .pendList _ (listing_perm W c))
  | pend todo found =>
    cases todo with
    | nil =>
      simp only [stepW, hpc]
      split
      · next hh => exact .move _ (hpc ▸ .pendNone found hh)
      · next id t rest hh => exact .move _ (hpc ▸ .pendSome found id t rest hh)
    | cons id todo =>
      simp only [stepW, hpc]
      split
      · next e he => exact .move _ (hpc ▸ .pendErr id todo found e he)
      · next h hh =>
        split
        · next hp => exact .move _ (hpc ▸ .pendHit id todo found h hh hp)
        · next hp => exact .move _ (hpc ▸ .pendMiss id todo found h hh hp)
  | fetch id =>
    simp only [stepW, hpc]
    split
    · next e he => exact .move _ (hpc ▸ .fetchErr id e he)
    · next h hh => exact .fetch id h hpc hh
  | sample =>
    simp only [stepW, hpc]
    split
    · exact .move _ (hpc ▸ .sampleErr)
    · next s hs =>
      split
      · exact .move _ (hpc ▸ .sampleErr)
      · next loc hl =>
        split
        · exact .move _ (hpc ▸ .sampleErr)
        · next hi =>
          split
          · exact .move _ (hpc ▸ .sampleErr)
          · next h d hn =>
            obtain ⟨hv, rfl, rfl⟩ := new_ok hn
            exact .create s loc hpc hs hl hi hv
  | claim id h =>
    simp only [stepW, hpc]
    split
    · next h' d hp =>
      obtain ⟨hv, rfl, rfl⟩ := put_ok hp
      exact .claimOk id h hpc hv
    · next e d hp =>
      have hv := put_error hp
      split
      · next hn => exact .claimLost id h _ _ hpc hv (Or.inr (Or.inr rfl))
      · next n hn =>
        split
        · exact .claimLost id h _ _ hpc hv (Or.inr (Or.inl rfl))
        · next hlt =>
          exact .claimLost id h _ _ hpc hv (Or.inl ⟨rfl, n, hn, by omega, rfl⟩)
  | eval id h =>
    simp only [stepW, hpc]
    split
    · next e he => exact .evalErr id h e hpc he
    · next t r he => exact .evalOk id h t r hpc he
  | report id h t r =>
    simp only [stepW, hpc]
    split
    · next e d hp => exact .move _ (hpc ▸ .reportErr id h t r (put_error hp))
    · next h' d hp =>
      obtain ⟨hv, rfl, rfl⟩ := put_ok hp
      exact .reportOk id h t r hpc hv
  | budget t r =>
    simp only [stepW, hpc]
    have hb : charge W.budget r.cost = W.budget + r.cost.getD 0 := by
      cases r.cost <;> simp [charge]
    rw [hb]
    split
    · next he => exact .budget t r _ hpc (Or.inl ⟨rfl, he⟩)
    · next e he => exact .budget t r _ hpc (Or.inr ⟨e, he, rfl⟩)
  | logErr t r e =>
    simp only [stepW, hpc]
    exact .logErr t r e hpc

/-- All transitions of the system, with the worker concerned. -/
inductive Trans (fs : String → Option PyFloat) (st : Nat → Settings) (W : World) (w : Nat) :
    World → Prop
  | idle : Trans fs st W w W
  | step (c W') : (W.worker w).alive = true → Step fs (st w) W w c W' → Trans fs st W w W'
  | kill : Trans fs st W w (W.killW w)
  | torn (s loc v n) : (W.worker w).alive = true → (W.worker w).pc = .sample →
      prepareSample W s = some loc → s.id ∉ W.ids →
      (v = (W.disk s.id).ver ∧ n = (W.disk s.id).next ∨
        v = some (W.disk s.id).next ∧ n = (W.disk s.id).next + 1) →
      Trans fs st W w
        (({ (W.setDisk s.id ⟨v, (W.disk s.id).data, n⟩) with ids := W.ids ++ [s.id] }).killW w)

theorem act_trans (fs : String → Option PyFloat) (st : Nat → Settings) (W : World) (a : Act) :
    Trans fs st W a.who (act fs st W a) := by
  cases a with
  | step w c =>
    simp only [act, Act.who]
    split
    · next h => exact .step c _ h (stepW_step _ _ _ _ _)
    · exact .idle
  | kill w => exact .kill
  | killCreating w c torn =>
    simp only [act, Act.who]
    split
    · next h =>
      split
      · next s hpc hs =>
        split
        · exact .kill
        · next loc hl =>
          split
          · exact .kill
          · next hi =>
            cases torn with
            | false =>
              exact .torn s loc _ _ h hpc hl hi (Or.inl ⟨rfl, rfl⟩)
            | true =>
              exact .torn s loc _ _ h hpc hl hi (Or.inr ⟨rfl, rfl⟩)
      · exact .kill
    · exact .idle

theorem run_cons (fs : String → Option PyFloat) (st : Nat → Settings) (W : World) (a : Act)
    (as : List Act) : run fs st W (a :: as) = run fs st (act fs st W a) as := rfl

theorem run_append (fs : String → Option PyFloat) (st : Nat → Settings) (W : World)
    (as bs : List Act) : run fs st W (as ++ bs) = run fs st (run fs st W as) bs := by
  simp [run, List.foldl_append]

/-- Induction over executions. -/
theorem run_induction (fs : String → Option PyFloat) (st : Nat → Settings) {P : World → Prop}
    (hstep : ∀ W w W', P W → Trans fs st W w W' → P W') {W : World} (h0 : P W) (as : List Act) :
    P (run fs st W as) := by
  induction as generalizing W with
  | nil => exact h0
  | cons a as ih => exact ih (hstep W _ _ h0 (act_trans fs st W a))

end Neps.Run
