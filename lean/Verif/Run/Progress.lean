import Verif.Run.Totals

/-!
# One worker going on alone: it gets somewhere
-/

namespace Neps.Run

open Neps.Store (Disk Handle)

/-- `n` steps of worker `w`. What the optimizer and the objective do, the clocks and the listing
orders are given by `π`, which may depend on everything. -/
def solo (fs : String → Option PyFloat) (st : Nat → Settings) (w : Nat) (π : World → Choice) :
    Nat → World → World
  | 0, W => W
  | n + 1, W => solo fs st w π n (act fs st W (.step w (π W)))

/-- The steps of a worker alone are an execution of the system. -/
theorem solo_run (fs st w π) (n : Nat) (W : World) :
    ∃ as, OnlyBy (· = w) as ∧ solo fs st w π n W = run fs st W as := by
  induction n generalizing W with
  | zero => exact ⟨[], by simp [OnlyBy], rfl⟩
  | succ n ih =>
    obtain ⟨as, h1, h2⟩ := ih (act fs st W (.step w (π W)))
    refine ⟨.step w (π W) :: as, ?_, h2⟩
    intro a ha
    rcases List.mem_cons.mp ha with rfl | ha
    · rfl
    · exact h1 a ha

theorem solo_add (fs st w π) (m n : Nat) (W : World) :
    solo fs st w π (m + n) W = solo fs st w π n (solo fs st w π m W) := by
  induction m generalizing W with
  | zero => simp [solo]
  | succ m ih => rw [Nat.succ_add]; exact ih _

/-- The optimizer and the objective do their part: the optimizer proposes a new trial whose
predecessor, if any, exists, and what the objective returns can be understood. An objective that
raises is fine. -/
structure Cooperates (fs : String → Option PyFloat) (s : Settings) (π : World → Choice) : Prop where
  asks : ∀ W, ∃ p, (π W).ask = some p ∧ p.id ∉ W.ids ∧ ∀ q, p.previousId = some q → q ∈ W.ids
  returns : ∀ W v, (π W).outcome = .returned v →
    ∃ p, parseUserResult fs v s.dv.costIfNotProvided s.dv.learningCurveIfNotProvided = .ok p

theorem Cooperates.evaluates {fs s π} (H : Cooperates fs s π) (W : World) (t : Trial) :
    ∃ t' r, evalTrial fs t s.dv (π W).outcome (π W).now (π W).duration = .ok (t', r) := by
  unfold evalTrial
  cases h : (π W).outcome with
  | raised e tb => exact ⟨_, _, rfl⟩
  | returned v =>
    obtain ⟨p, hp⟩ := H.returns W v h
    simp only [hp]
    exact ⟨_, _, rfl⟩

section
variable (fs : String → Option PyFloat) (st : Nat → Settings) (w : Nat) (π : World → Choice)

/-- The worker gets from `W` to `W'` on its own. -/
def Reaches (W W' : World) : Prop := ∃ n, solo fs st w π n W = W'

variable {fs st w π}

theorem Reaches.refl (W : World) : Reaches fs st w π W W := ⟨0, rfl⟩

theorem Reaches.trans {A B C : World} (h₁ : Reaches fs st w π A B) (h₂ : Reaches fs st w π B C) :
    Reaches fs st w π A C := by
  obtain ⟨m, rfl⟩ := h₁
  obtain ⟨n, rfl⟩ := h₂
  exact ⟨m + n, solo_add fs st w π m n A⟩

theorem Reaches.step {A B : World} (ha : (A.worker w).alive = true)
    (h : stepW fs (st w) A w (π A) = B) : Reaches fs st w π A B :=
  ⟨1, by simp [solo, act, ha, h]⟩

theorem goto_goto (W : World) (w : Nat) (a b : PC) : (W.goto w a).goto w b = W.goto w b := by
  unfold World.goto World.setW
  simp only [if_true]
  congr 1
  funext w'
  by_cases h : w' = w <;> simp [h]

@[simp] theorem goto_pc (W : World) (w : Nat) (a : PC) : ((W.goto w a).worker w).pc = a := by simp

@[simp] theorem goto_alive (W : World) (w : Nat) (a : PC) :
    ((W.goto w a).worker w).alive = (W.worker w).alive := by simp

theorem goto_self (W : World) (w : Nat) (a : PC) (h : (W.worker w).pc = a) : W.goto w a = W := by
  unfold World.goto World.setW
  have : (fun w' => if w' = w then { W.worker w with pc := a } else W.worker w') = W.worker := by
    funext w'
    by_cases e : w' = w
    · subst e; subst h; simp
    · simp [e]
  rw [this]

/-! ## The checks -/

/-- All trial directories can be read. -/
def Readable (W : World) : Prop := ∀ id ∈ W.ids, (W.stored id).isSome

theorem load_of_stored {W : World} {id : String} {t : Trial} (h : W.stored id = some t) :
    ∃ x, Store.load (W.disk id) = .ok x ∧ x.cur = t := by
  unfold World.stored at h
  split at h
  · next x hx => exact ⟨x, hx, by simpa using h⟩
  · simp at h

theorem reaches_sweep {W : World} (ha : (W.worker w).alive = true) (todo : List String)
    (seen : List Trial) (hr : ∀ id ∈ todo, (W.stored id).isSome) :
    Reaches fs st w π (W.goto w (.sweep todo seen))
      (W.goto w (.sweep [] (seen ++ todo.filterMap W.stored))) := by
  induction todo generalizing seen with
  | nil => simpa using Reaches.refl _
  | cons id todo ih =>
    obtain ⟨t, ht⟩ := Option.isSome_iff_exists.mp (hr id (by simp))
    obtain ⟨x, hx, rfl⟩ := load_of_stored ht
    have h1 : Reaches fs st w π (W.goto w (.sweep (id :: todo) seen))
        (W.goto w (.sweep todo (seen ++ [x.cur]))) := by
      refine .step (by simpa using ha) ?_
      simp only [stepW, goto_pc, goto_disk, hx, goto_goto]
    have h2 := ih (seen ++ [x.cur]) (fun i hi => hr i (by simp [hi]))
    rw [List.filterMap_cons_some ht]
    simpa using h1.trans h2

/-- Where the checks at the head of the loop lead (`wall` is the time since the worker started). -/
def checked (s : Settings) (W : World) (w : Nat) (wall : PyFloat) : PC :=
  let x := W.worker w
  match localCheck s x.err x.count x.cost wall x.evalTime with
  | some h => if h.raises then .raised .workerRaise else .stopped h
  | none =>
    match (if s.readsErrors then sharedErrCheck s W.errs else none) with
    | some h => if h.raises then .raised .workerRaise else .stopped h
    | none =>
      match (if s.hasGlobalLimit then globalCheck s W.trials else none) with
      | some h => .stopped h
      | none => .pendList

theorem reaches_checked {W : World} (ha : (W.worker w).alive = true)
    (hpc : (W.worker w).pc = .top) (hr : Readable W) :
    Reaches fs st w π W (W.goto w (checked (st w) W w (π W).wall)) := by
  have hglob : ∀ s, s = st w → s.hasGlobalLimit = true → Reaches fs st w π (W.goto w .sweepList)
      (W.goto w (match globalCheck s W.trials with | some h => .stopped h | none => .pendList)) := by
    rintro s rfl hg
    have h1 : Reaches fs st w π (W.goto w .sweepList)
        (W.goto w (.sweep (listing W (π (W.goto w .sweepList))) [])) := by
      refine .step (by simpa using ha) ?_
      simp only [stepW, goto_pc, goto_goto]
      rfl
    have hp := listing_perm W (π (W.goto w .sweepList))
    have h2 := reaches_sweep (fs := fs) (st := st) (π := π) ha (listing W (π (W.goto w .sweepList)))
      [] (fun id hid => hr id (hp.mem_iff.mp hid))
    refine (h1.trans h2).trans (.step (by simpa using ha) ?_)
    simp only [stepW, goto_pc, List.nil_append]
    have hq : globalCheck (st w) ((listing W (π (W.goto w .sweepList))).filterMap W.stored) =
        globalCheck (st w) W.trials := globalCheck_perm (hp.filterMap _)
    rw [hq]
    cases globalCheck (st w) W.trials <;> simp [goto_goto]
  unfold checked
  cases hl : localCheck (st w) (W.worker w).err (W.worker w).count (W.worker w).cost (π W).wall
      (W.worker w).evalTime with
  | some h =>
    refine .step ha ?_
    simp only [stepW, hpc, hl]
    split <;> rfl
  | none =>
    simp only [hl]
    cases he : (st w).readsErrors with
    | true =>
      have h1 : Reaches fs st w π W (W.goto w .readErrors) :=
        .step ha (by simp only [stepW, hpc, hl, he, if_true])
      refine h1.trans ?_
      simp only [if_true]
      cases hs : sharedErrCheck (st w) W.errs with
      | some h =>
        refine .step (by simpa using ha) ?_
        simp only [stepW, goto_pc, goto_errs, hs, goto_goto]
        split <;> rfl
      | none =>
        simp only
        cases hg : (st w).hasGlobalLimit with
        | true =>
          have h2 : Reaches fs st w π (W.goto w .readErrors) (W.goto w .sweepList) :=
            .step (by simpa using ha) (by
              simp only [stepW, goto_pc, goto_errs, hs, hg, if_true, goto_goto])
          simpa using h2.trans (hglob _ rfl hg)
        | false =>
          refine .step (by simpa using ha) ?_
          simp [stepW, hs, hg, goto_goto]
    | false =>
      simp only [Bool.false_eq_true, if_false]
      cases hg : (st w).hasGlobalLimit with
      | true =>
        have h2 : Reaches fs st w π W (W.goto w .sweepList) :=
          .step ha (by simp [stepW, hpc, hl, he, hg])
        simpa using h2.trans (hglob _ rfl hg)
      | false => exact .step ha (by simp [stepW, hpc, hl, he, hg])

/-! ## Getting a trial -/

theorem reaches_pend {W : World} (ha : (W.worker w).alive = true) (todo : List String)
    (found : List (String × PyFloat)) (hr : ∀ id ∈ todo, (W.stored id).isSome)
    (hf : ∀ p ∈ found, ∃ t, W.stored p.1 = some t ∧ t.state = .pending) :
    ∃ found', Reaches fs st w π (W.goto w (.pend todo found)) (W.goto w (.pend [] found')) ∧
      ∀ p ∈ found', ∃ t, W.stored p.1 = some t ∧ t.state = .pending := by
  induction todo generalizing found with
  | nil => exact ⟨found, .refl _, hf⟩
  | cons id todo ih =>
    obtain ⟨t, ht⟩ := Option.isSome_iff_exists.mp (hr id (by simp))
    obtain ⟨x, hx, rfl⟩ := load_of_stored ht
    have hr' : ∀ i ∈ todo, (W.stored i).isSome := fun i hi => hr i (by simp [hi])
    by_cases hp : x.cur.state = .pending
    · have h1 : Reaches fs st w π (W.goto w (.pend (id :: todo) found))
          (W.goto w (.pend todo (found ++ [(id, x.cur.metadata.timeSampled)]))) :=
        .step (by simpa using ha) (by simp only [stepW, goto_pc, goto_disk, hx, hp, if_true,
          goto_goto])
      obtain ⟨f', h2, h3⟩ := ih (found ++ [(id, x.cur.metadata.timeSampled)]) hr' (by
        intro p hpm
        rcases List.mem_append.mp hpm with hpm | hpm
        · exact hf p hpm
        · simp only [List.mem_singleton] at hpm
          subst hpm
          exact ⟨x.cur, ht, hp⟩)
      exact ⟨f', h1.trans h2, h3⟩
    · have h1 : Reaches fs st w π (W.goto w (.pend (id :: todo) found))
          (W.goto w (.pend todo found)) :=
        .step (by simpa using ha) (by simp only [stepW, goto_pc, goto_disk, hx, hp, if_false,
          goto_goto])
      obtain ⟨f', h2, h3⟩ := ih found hr' hf
      exact ⟨f', h1.trans h2, h3⟩

theorem prepareSample_readable {W : World} (hr : Readable W) {p : Sampled}
    (hp : ∀ q, p.previousId = some q → q ∈ W.ids) : ∃ loc, prepareSample W p = some loc := by
  unfold prepareSample
  rw [if_pos]
  · cases h : p.previousId with
    | none => exact ⟨_, rfl⟩
    | some q =>
      have hq := hp q h
      obtain ⟨t, ht⟩ := Option.isSome_iff_exists.mp (hr q hq)
      obtain ⟨x, hx, _⟩ := load_of_stored ht
      simp only [hq, if_true, hx]
      exact ⟨_, rfl⟩
  · rw [List.all_eq_true]
    intro id hid
    obtain ⟨t, ht⟩ := Option.isSome_iff_exists.mp (hr id hid)
    obtain ⟨x, hx, _⟩ := load_of_stored ht
    simp [hx]

/-- A trial that is pending has no report. -/
def Unreported (W : World) : Prop :=
  ∀ id t, (W.disk id).data = some t → t.state = .pending → t.report = none

theorem unreported_run (fs st as) : Unreported (run fs st {} as) := by
  have := run_induction fs st (P := fun W => Coh fs W ∧ Unreported W) (W := {})
    (fun W w W' I t => ⟨I.1.trans t, fun id t' ht hs => by
      have e := I.1.effect t
      rcases e.origin ht with ⟨t₀, h₀⟩ | ⟨_, hr⟩
      · obtain ⟨t₁, h₁, _, _, hch⟩ := e.change I.1 h₀
        rw [h₁] at ht
        cases ht
        rcases hch with rfl | ⟨now, rfl, _⟩ | ⟨_, r, _, hst, _⟩
        · exact I.2 id _ h₀ hs
        · simp [Trial.setEvaluating] at hs
        · rw [hs] at hst
          cases hra : r.reportedAs <;> simp [hra, ReportedAs.state] at hst
      · exact hr⟩)
    ⟨Coh.init fs, by simp [Unreported, Disk.empty]⟩ as
  exact this.2

/-- What the worker has to find in order to get on. -/
structure Ready (fs : String → Option PyFloat) (w : Nat) (W : World) : Prop where
  coh : Coh fs W
  alive : (W.worker w).alive = true
  readable : Readable W
  unreported : Unreported W

/-- The world in which worker `w` has a pending trial in its hands. -/
structure Holding (fs : String → Option PyFloat) (w : Nat) (W : World) (id : String)
    (h : Handle Trial) : Prop extends Ready fs w W where
  pc : (W.worker w).pc = .claim id h
  mem : id ∈ W.ids
  ver : (W.disk id).ver = some h.ver
  data : (W.disk id).data = some h.cur
  pending : h.cur.state = .pending

theorem reaches_coh {A B : World} (C : Coh fs A) (h : Reaches fs st w π A B) : Coh fs B := by
  obtain ⟨n, rfl⟩ := h
  obtain ⟨as, _, e⟩ := solo_run fs st w π n A
  rw [e]
  exact run_induction fs st (P := Coh fs) (fun _ _ _ I t => I.trans t) C as

theorem filterMap_stored_congr {W W' : World} (hids : W'.ids = W.ids) (hdisk : W'.disk = W.disk) :
    W'.trials = W.trials := by
  have : W'.stored = W.stored := by funext id; exact stored_congr (by rw [hdisk])
  simp [World.trials, hids, this]

/-- From the head of the search for a trial, the worker gets hold of one: a pending one, or a new
one. The number of trials that count does not change. -/
theorem reaches_claim (H : Cooperates fs (st w) π) {W : World} (R : Ready fs w W) :
    ∃ X id h, Reaches fs st w π (W.goto w .pendList) X ∧ Holding fs w X id h ∧
      evaluations X.log = evaluations W.log ∧
      evalCount (st w) X.trials = evalCount (st w) W.trials ∧
      (X.worker w).count = (W.worker w).count := by
  have ha := R.alive
  let V := W.goto w .pendList
  have h1 : Reaches fs st w π V (W.goto w (.pend (listing W (π V)) [])) := by
    refine .step (by simpa [V] using ha) ?_
    simp only [V, stepW, goto_pc, goto_goto]
    rfl
  have hp := listing_perm W (π V)
  obtain ⟨found, h2, hf⟩ := reaches_pend (fs := fs) (st := st) (π := π) ha (listing W (π V)) []
    (fun id hid => R.readable id (hp.mem_iff.mp hid)) (by simp)
  have h3 := h1.trans h2
  cases hs : sortByTime found with
  | cons p rest =>
    obtain ⟨id, time⟩ := p
    have hm : (id, time) ∈ found :=
      (List.perm_insertionSort _ found).mem_iff.mp (by
        have : (id, time) ∈ sortByTime found := by rw [hs]; simp
        exact this)
    obtain ⟨t, ht, hpend⟩ := hf _ hm
    obtain ⟨x, hx, rfl⟩ := load_of_stored ht
    have h4 : Reaches fs st w π (W.goto w (.pend [] found)) (W.goto w (.fetch id)) :=
      .step (by simpa using ha) (by simp only [stepW, goto_pc, hs, goto_goto])
    have h5 : Reaches fs st w π (W.goto w (.fetch id)) (W.goto w (.claim id x)) :=
      .step (by simpa using ha) (by simp only [stepW, goto_pc, goto_disk, hx, goto_goto])
    have hall := (h3.trans h4).trans h5
    have hc : Coh fs V := R.coh.local V w rfl rfl (fun w' e => by simp [V, e]) (by simp [V, PC.handle])
    refine ⟨_, id, x, hall, ⟨⟨reaches_coh hc hall, by simpa using ha, R.readable, R.unreported⟩,
      by simp, ?_, (load_ok hx).1, (load_ok hx).2, hpend⟩, rfl, rfl, by simp⟩
    by_contra hn
    have := (R.coh.fresh id hn).2
    rw [(load_ok hx).2] at this
    simp at this
  | nil =>
    have h4 : Reaches fs st w π (W.goto w (.pend [] found)) (W.goto w .sample) :=
      .step (by simpa using ha) (by simp only [stepW, goto_pc, hs, goto_goto])
    have h5 := h3.trans h4
    let U := W.goto w .sample
    obtain ⟨p, hask, hnew, hprev⟩ := H.asks U
    have hnew' : p.id ∉ W.ids := hnew
    obtain ⟨loc, hloc⟩ := prepareSample_readable (W := U) R.readable hprev
    have hver : (W.disk p.id).ver = none := (R.coh.fresh p.id hnew').1
    let T := newTrial w p loc (π U).now
    let hd : Handle Trial := ⟨T, (W.disk p.id).next⟩
    let X := (({ (U.setDisk p.id ⟨some (W.disk p.id).next, some T, (W.disk p.id).next + 1⟩) with
      ids := U.ids ++ [p.id] }).goto w (.claim p.id hd)).emit (.created w p.id)
    have h6 : Reaches fs st w π U X := by
      refine .step (by simpa [U] using ha) ?_
      have hnw : Store.new T (U.disk p.id) = (.ok hd,
          ⟨some (W.disk p.id).next, some T, (W.disk p.id).next + 1⟩) := by
        have : U.disk p.id = W.disk p.id := rfl
        simp only [Store.new, this, hver, Store.bump, Store.write, hd]
      have hpc : (U.worker w).pc = .sample := by simp [U]
      simp only [stepW, hpc, hask, hloc, hnew, if_false]
      rw [show newTrial w p loc (π U).now = T from rfl, hnw]
    have hall := h5.trans h6
    have hc : Coh fs V := R.coh.local V w rfl rfl (fun w' e => by simp [V, e]) (by simp [V, PC.handle])
    have hXids : X.ids = W.ids ++ [p.id] := rfl
    have hXdisk : X.disk = fun id' => if id' = p.id then
        ⟨some (W.disk p.id).next, some T, (W.disk p.id).next + 1⟩ else W.disk id' := rfl
    have hXnew : X.stored p.id = some T := stored_eq_some.mpr (by rw [hXdisk]; simp)
    have hXold : ∀ id, id ≠ p.id → X.stored id = W.stored id := by
      intro id e; exact stored_congr (by rw [hXdisk]; simp [e])
    refine ⟨X, p.id, hd, hall, ⟨⟨reaches_coh hc hall, by simpa [X, U] using ha, ?_, ?_⟩,
      by simp [X], by rw [hXids]; simp, by rw [hXdisk]; simp [hd], by rw [hXdisk]; simp [hd],
      by simp [hd, T, newTrial, Trial.new]⟩, by simp [X, U, evaluations], ?_, by simp [X, U]⟩
    · intro id hid
      by_cases e : id = p.id
      · rw [e, hXnew]; rfl
      · rw [hXold id e]
        rw [hXids] at hid
        simp only [List.mem_append, List.mem_singleton, e, or_false] at hid
        exact R.readable id hid
    · intro id t ht hst
      rw [hXdisk] at ht
      by_cases e : id = p.id
      · simp only [e, if_true, Option.some.injEq] at ht
        subst ht
        simp [T, newTrial, Trial.new]
      · simp only [e, if_false] at ht
        exact R.unreported id t ht hst
    · have e1 : X.trials = W.trials ++ [T] := by
        have e : W.ids.filterMap X.stored = W.ids.filterMap W.stored :=
          List.filterMap_congr (fun x hx => hXold x (fun e => hnew' (e ▸ hx)))
        simp [World.trials, hXids, List.filterMap_append, e, hXnew]
      have e2 : counted T = false := by simp [T, newTrial, Trial.new, counted]
      have e3 : T.report = none := by simp [T, newTrial, Trial.new]
      rw [e1]
      unfold evalCount
      split <;> simp [e2, e3]

/-! ## Evaluating it -/

theorem put_same {x : Trial} {h : Handle Trial} {d : Disk Trial} (hv : d.ver = some h.ver) :
    Store.put x h d = (.ok ⟨x, d.next⟩, ⟨some d.next, some x, d.next + 1⟩) := by
  simp [Store.put, hv, Store.bump, Store.write]

/-- A worker that holds a pending trial evaluates it, stores the report and comes back to the head
of the loop. -/
theorem reaches_top (H : Cooperates fs (st w) π) {X : World} {id : String} {h : Handle Trial}
    (R : Holding fs w X id h) :
    ∃ Y, Reaches fs st w π X Y ∧ Ready fs w Y ∧ (Y.worker w).pc = .top ∧
      evaluations Y.log = (w, id) :: evaluations X.log ∧
      evalCount (st w) Y.trials = evalCount (st w) X.trials + 1 ∧
      (Y.worker w).count = (X.worker w).count + 1 := by
  have ha := R.alive
  -- the claim
  let T₁ := h.cur.setEvaluating (π X).now (workerName w)
  let h₁ : Handle Trial := ⟨T₁, (X.disk id).next⟩
  let d₁ : Disk Trial := ⟨some (X.disk id).next, some T₁, (X.disk id).next + 1⟩
  let A := ((X.setDisk id d₁).setW w { X.worker w with pc := .eval id h₁, nFailed := some 0 }).emit
    (.claimed w id h.cur)
  have hA : Reaches fs st w π X A := by
    refine .step ha ?_
    have hp := put_same (x := T₁) R.ver
    simp only [stepW, R.pc]
    rw [show h.cur.setEvaluating (π X).now (workerName w) = T₁ from rfl, hp]
  -- the evaluation
  obtain ⟨T₂, r, he⟩ := H.evaluates A T₁
  let B := (A.setW w { A.worker w with
        pc := .report id h₁ T₂ r
        evalTime := (A.worker w).evalTime + (π A).duration
        count := (A.worker w).count + 1
        cost := (A.worker w).cost + r.cost.getD 0
        err := match r.err with | some e => some e | none => (A.worker w).err }).emit
          (.evaluated w id (π A).outcome)
  have hB : Reaches fs st w π A B := by
    refine .step (by simpa [A] using ha) ?_
    have hpc : (A.worker w).pc = .eval id h₁ := by simp [A]
    simp only [stepW, hpc]
    rw [show h₁.cur = T₁ from rfl, he]
    rfl
  -- the report
  let T₃ : Trial := { T₂ with report := some r }
  let d₃ : Disk Trial := ⟨some (B.disk id).next, some T₃, (B.disk id).next + 1⟩
  let D := ((B.setDisk id d₃).goto w (.budget T₂ r)).emit (.reported w id r)
  have hD : Reaches fs st w π B D := by
    refine .step (by simpa [A, B] using ha) ?_
    have hpc : (B.worker w).pc = .report id h₁ T₂ r := by simp [B]
    have hv : (B.disk id).ver = some h₁.ver := by simp [A, B, d₁, h₁]
    have hp := put_same (x := T₃) hv
    simp only [stepW, hpc]
    rw [show ({ T₂ with report := some r } : Trial) = T₃ from rfl, hp]
  -- the books
  have hbooks : ∃ Y, Reaches fs st w π D Y ∧ Y.ids = D.ids ∧ Y.disk = D.disk ∧
      (Y.worker w).alive = true ∧ (Y.worker w).pc = .top ∧
      evaluations Y.log = evaluations D.log ∧ (Y.worker w).count = (D.worker w).count := by
    have hDa : (D.worker w).alive = true := by simpa [A, B, D] using ha
    have hpc : (D.worker w).pc = .budget T₂ r := by simp [D]
    cases hr : r.err with
    | none =>
      refine ⟨_, .step hDa rfl, ?_⟩
      simp only [stepW, hpc, hr]
      exact ⟨rfl, rfl, by simpa using hDa, by simp, by simp [evaluations], by simp⟩
    | some e =>
      let E := (({ D with budget := charge D.budget r.cost } : World).goto w (.logErr T₂ r e)).emit
        (.charged w r)
      have hE : Reaches fs st w π D E := .step hDa (by simp only [stepW, hpc, hr]; rfl)
      have hEpc : (E.worker w).pc = .logErr T₂ r e := by simp [E]
      have hEa : (E.worker w).alive = true := by simpa [E] using hDa
      refine ⟨_, hE.trans (.step hEa rfl), ?_⟩
      simp only [stepW, hEpc]
      exact ⟨rfl, rfl, by simpa using hEa, by simp, by simp [E, evaluations], by simp [E]⟩
  obtain ⟨Y, hY, hids, hdisk, hYa, hYpc, hYlog, hYc⟩ := hbooks
  have hall := ((hA.trans hB).trans hD).trans hY
  have hids' : Y.ids = X.ids := hids
  have hdisk' : Y.disk = fun id' => if id' = id then d₃ else X.disk id' := by
    rw [hdisk]
    funext id'
    by_cases e : id' = id <;> simp [D, B, A, e]
  have hnew : Y.stored id = some T₃ := stored_eq_some.mpr (by rw [hdisk']; simp [d₃])
  have hold : ∀ id', id' ≠ id → Y.stored id' = X.stored id' := by
    intro id' e; exact stored_congr (by rw [hdisk']; simp [e])
  have hst : T₃.state ≠ .pending := by
    have := (evalTrial_ok he).2.2.1
    intro e
    have e' : T₂.state = .pending := e
    rw [this] at e'
    cases hra : r.reportedAs <;> simp [hra, ReportedAs.state] at e'
  refine ⟨Y, hall, ⟨reaches_coh R.coh hall, hYa, ?_, ?_⟩, hYpc, ?_, ?_, ?_⟩
  · intro id' hid
    by_cases e : id' = id
    · rw [e, hnew]; rfl
    · rw [hold id' e]; exact R.readable id' (hids' ▸ hid)
  · intro id' t ht hp
    rw [hdisk'] at ht
    by_cases e : id' = id
    · simp only [e, if_true, d₃, Option.some.injEq] at ht
      subst ht
      exact absurd hp hst
    · simp only [e, if_false] at ht
      exact R.unreported id' t ht hp
  · rw [hYlog]
    simp [D, B, A, evaluations]
  · have h0 : X.stored id = some h.cur := stored_eq_some.mpr ⟨⟨_, R.ver⟩, R.data⟩
    obtain ⟨l₁, l₂, e1, e2⟩ := trials_replace R.coh hids' R.mem h0 hnew hold
    have hn : h.cur.report = none := R.unreported id h.cur R.data R.pending
    have c1 : counted h.cur = false := by simp [counted, hn, R.pending]
    have c2 : counted T₃ = true := by simp [counted, T₃]
    rw [e1, e2]
    unfold evalCount
    split
    · simp [c1, c2]; omega
    · simp [hn, T₃]; omega
  · rw [hYc]
    simp [D, B, A]

/-- One round: the worker is stopped by its checks, or evaluates one more trial. -/
theorem round (H : Cooperates fs (st w) π) {W : World} (R : Ready fs w W)
    (hpc : (W.worker w).pc = .top) (hgo : checked (st w) W w (π W).wall = .pendList) :
    ∃ Y id, Reaches fs st w π W Y ∧ Ready fs w Y ∧ (Y.worker w).pc = .top ∧
      evaluations Y.log = (w, id) :: evaluations W.log ∧
      evalCount (st w) Y.trials = evalCount (st w) W.trials + 1 ∧
      (Y.worker w).count = (W.worker w).count + 1 := by
  have h1 := reaches_checked (fs := fs) (st := st) (π := π) R.alive hpc R.readable
  rw [hgo] at h1
  obtain ⟨X, id, h, h2, hX, e1, e2, e3⟩ := reaches_claim H R
  obtain ⟨Y, h3, hY, hYpc, e4, e5, e6⟩ := reaches_top H hX
  exact ⟨Y, id, (h1.trans h2).trans h3, hY, hYpc, by rw [e4, e1], by rw [e5, e2], by rw [e6, e3]⟩

end

end Neps.Run
