import Verif.Run.SurvivorSpec
import Verif.Run.Progress
import Verif.Run.Life

/-!
# The worker that took up the latest trial meets no conflict
-/

namespace Neps.Run

open Neps.Store (Disk Handle)

/-- The trial is stored and pending. -/
def IsPending (W : World) (id : String) : Prop := ∃ t, W.stored id = some t ∧ t.state = .pending

/-- No other worker has taken up a trial since `w` did (or nobody has so far). -/
def Favoured (W : World) (w : Nat) : Prop := ∀ v, lastClaimer W = some v → v = w

/-- What a favoured worker may rely on. -/
def Fine (W : World) : PC → Prop
  | .pend _ found => ∀ p ∈ found, IsPending W p.1
  | .fetch id => IsPending W id
  | .claim id h => (W.disk id).ver = some h.ver ∧ IsPending W id
  | .eval id h | .report id h _ _ => (W.disk id).ver = some h.ver
  | .raised e => e.conflict = false
  | _ => True

/-- The trials a worker is going to look at exist. -/
def Listed (W : World) : PC → Prop
  | .sweep todo _ => ∀ id ∈ todo, id ∈ W.ids
  | .pend todo found => (∀ id ∈ todo, id ∈ W.ids) ∧ ∀ p ∈ found, p.1 ∈ W.ids
  | .fetch id => id ∈ W.ids
  | _ => True

/-- The invariant. -/
structure Safe (W : World) : Prop where
  readable : Readable W
  listed : ∀ w, Listed W (W.worker w).pc
  unique : ∀ w v id h h', (W.worker w).pc.inEval = some (id, h) →
    (W.worker v).pc.inEval = some (id, h') → h.ver = h'.ver → w = v
  fine : ∀ w, Favoured W w → Fine W (W.worker w).pc

theorem Safe.init : Safe {} where
  readable := by simp [Readable]
  listed := by simp [Listed]
  unique := by simp [PC.inEval]
  fine := by simp [Fine]

/-- The content of a pending trial stays while it is not claimed. -/
theorem isPending_keep {W W' : World} {id : String} (h : W'.disk id = W.disk id)
    (hp : IsPending W id) : IsPending W' id := by
  obtain ⟨t, h1, h2⟩ := hp
  exact ⟨t, by simpa [World.stored, h] using h1, h2⟩

theorem Fine.keep {W W' : World} {pc : PC} (hd : ∀ id, IsPending W id → W'.disk id = W.disk id)
    (he : ∀ id h, pc.inEval = some (id, h) → W'.disk id = W.disk id) (h : Fine W pc) :
    Fine W' pc := by
  cases pc with
  | pend todo found => exact fun p hp => isPending_keep (hd _ (h p hp)) (h p hp)
  | fetch id => exact isPending_keep (hd _ h) h
  | claim id x => exact ⟨by rw [hd _ h.2]; exact h.1, isPending_keep (hd _ h.2) h.2⟩
  | eval id x => simp only [Fine] at h ⊢; rw [he id x rfl]; exact h
  | report id x t r => simp only [Fine] at h ⊢; rw [he id x rfl]; exact h
  | _ => exact h

/-- A step of worker `v` that claims nothing and does not touch the disk: only its own program counter
has to be looked at. -/
theorem Safe.local {W : World} (S : Safe W) (W' : World) (v : Nat) (hids : W'.ids = W.ids)
    (hdisk : W'.disk = W.disk) (hw : ∀ w, w ≠ v → (W'.worker w).pc = (W.worker w).pc)
    (hc : claims W'.log = claims W.log)
    (hlist : Listed W (W'.worker v).pc)
    (hun : ∀ id h, (W'.worker v).pc.inEval = some (id, h) →
      (W.worker v).pc.inEval = some (id, h))
    (hfine : Favoured W v → Fine W (W'.worker v).pc) : Safe W' where
  readable := by
    intro id hid
    rw [hids] at hid
    simpa [World.stored, hdisk] using S.readable id hid
  listed := by
    have key : ∀ pc, Listed W pc → Listed W' pc := by
      intro pc
      cases pc <;> simp only [Listed, hids] <;> exact id
    intro w
    refine key _ ?_
    by_cases e : w = v
    · subst e; exact hlist
    · rw [hw w e]; exact S.listed w
  unique := by
    have key : ∀ w id h, (W'.worker w).pc.inEval = some (id, h) →
        (W.worker w).pc.inEval = some (id, h) := by
      intro w id h hh
      by_cases e : w = v
      · subst e; exact hun id h hh
      · rw [hw w e] at hh; exact hh
    intro w u id h h' h1 h2
    exact S.unique w u id h h' (key w id h h1) (key u id h' h2)
  fine := by
    intro w hf
    have hf' : Favoured W w := by simpa [Favoured, lastClaimer, hc] using hf
    refine Fine.keep (W := W) (by simp [hdisk]) (by simp [hdisk]) ?_
    by_cases e : w = v
    · subst e; exact hfine hf'
    · rw [hw w e]; exact S.fine w hf'

theorem Safe.trans {fs st W v W'} (C : Coh fs W) (S : Safe W) (t : Trans fs st W v W')
    (hu : ∀ id ∈ W'.ids, (W'.stored id).isSome) : Safe W' := by
  cases t with
  | idle => exact S
  | kill =>
    have hpc : ∀ w', ((W.killW v).worker w').pc = (W.worker w').pc := by
      intro w'; by_cases e : w' = v <;> simp [e]
    refine S.local _ v rfl rfl (fun w _ => hpc w) rfl ?_ ?_ ?_
    · rw [hpc]; exact S.listed v
    · rw [hpc]; exact fun _ _ h => h
    · rw [hpc]; exact S.fine v
  | torn s loc x n ha hpc hl hi hvn =>
    exfalso
    have := hu s.id (by simp)
    obtain ⟨t, ht⟩ := Option.isSome_iff_exists.mp this
    have h2 := (stored_eq_some.mp ht).2
    simp [(C.fresh _ hi).2] at h2
  | step c _ ha s =>
    cases s with
    | idle => exact S
    | move pc' m =>
      refine S.local _ v rfl rfl (by intro w e; simp [e]) rfl ?_ ?_ ?_
      · have hl := S.listed v
        generalize (W.worker v).pc = pc at m hl
        simp only [goto_worker, if_true]
        cases m with
        | sweepList l hp => exact fun id hid => hp.subset hid
        | pendList l hp => exact ⟨fun id hid => hp.subset hid, by simp⟩
        | sweepOk id todo seen h he => exact fun x hx => hl x (List.mem_cons_of_mem _ hx)
        | pendHit id todo found h he hp =>
          refine ⟨fun x hx => hl.1 x (List.mem_cons_of_mem _ hx), fun p hp' => ?_⟩
          rcases List.mem_append.mp hp' with hp' | hp'
          · exact hl.2 p hp'
          · simp only [List.mem_singleton] at hp'
            subst hp'
            exact hl.1 id (by simp)
        | pendMiss id todo found h he hp =>
          exact ⟨fun x hx => hl.1 x (List.mem_cons_of_mem _ hx), hl.2⟩
        | pendSome found id time rest hs =>
          exact hl.2 (id, time) (mem_sortByTime.mp (by rw [hs]; simp))
        | _ => trivial
      · simp only [goto_worker, if_true]
        rw [PC.inEval_none m.handle_none]
        simp
      · intro hf
        have hx := S.fine v hf
        have hl := S.listed v
        simp only [goto_worker, if_true]
        generalize hpc : (W.worker v).pc = pc at m hx hl
        have hload : ∀ id ∈ W.ids, ∀ e, Store.load (W.disk id) ≠ .error e := by
          intro id hid e he
          obtain ⟨t, ht⟩ := Option.isSome_iff_exists.mp (S.readable id hid)
          obtain ⟨x, hx, _⟩ := load_of_stored ht
          rw [hx] at he
          simp at he
        cases m with
        | sweepErr id todo seen e he => exact absurd he (hload id (hl id (by simp)) e)
        | pendList l hl => simp [Fine]
        | pendHit id todo found h he hp =>
          intro p hp'
          rcases List.mem_append.mp hp' with hp' | hp'
          · exact hx p hp'
          · simp only [List.mem_singleton] at hp'
            subst hp'
            exact ⟨h.cur, stored_eq_some.mpr ⟨⟨_, (load_ok he).1⟩, (load_ok he).2⟩, hp⟩
        | pendMiss id todo found h he hp => exact hx
        | pendSome found id time rest hs =>
          exact hx (id, time) (mem_sortByTime.mp (by rw [hs]; simp))
        | reportErr id h t r hv => exact absurd hx hv
        | _ => simp [Fine, RunErr.conflict]
    | fetch id h hpc hl =>
      refine S.local _ v rfl rfl (by intro w e; simp [e]) rfl ?_ ?_ ?_
      · simp [Listed]
      · simp [PC.inEval]
      · intro hf
        have hx := S.fine v hf
        rw [hpc] at hx
        simp only [goto_worker, if_true]
        exact ⟨(load_ok hl).1, hx⟩
    | claimLost id h pc' n hpc hv ho =>
      have h1 : (if v = v then ({ W.worker v with pc := pc', nFailed := n } : Worker)
          else W.worker v).pc = pc' := by simp
      refine S.local _ v rfl rfl (by intro w e; simp [e]) rfl ?_ ?_ ?_
      · simp only [emit_worker, setW_worker, if_true]
        rcases ho with ⟨rfl, _⟩ | rfl | rfl <;> trivial
      · simp only [emit_worker, setW_worker, if_true]
        rcases ho with ⟨rfl, _⟩ | rfl | rfl <;> simp [PC.inEval]
      · intro hf
        have hx := S.fine v hf
        rw [hpc] at hx
        exact absurd hx.1 hv
    | evalErr id h e hpc he =>
      refine S.local _ v rfl rfl (by intro w e; simp [e]) rfl ?_ ?_ ?_
      · simp [Listed]
      · simp [PC.inEval]
      · intro _; simp [Fine, RunErr.conflict]
    | evalOk id h t r hpc he =>
      refine S.local _ v rfl rfl (by intro w e; simp [e]) rfl ?_ ?_ ?_
      · simp [Listed]
      · simp [PC.inEval, hpc]
      · intro hf
        have hx := S.fine v hf
        rw [hpc] at hx
        simpa [Fine] using hx
    | budget t r pc' hpc ho =>
      refine S.local _ v rfl rfl (by intro w e; simp [e]) rfl ?_ ?_ ?_
      · simp only [emit_worker, goto_worker, if_true]
        rcases ho with ⟨rfl, _⟩ | ⟨_, _, rfl⟩ <;> trivial
      · simp only [emit_worker, goto_worker, if_true]
        rcases ho with ⟨rfl, _⟩ | ⟨_, _, rfl⟩ <;> simp [PC.inEval]
      · intro _
        simp only [emit_worker, goto_worker, if_true]
        rcases ho with ⟨rfl, _⟩ | ⟨_, _, rfl⟩ <;> trivial
    | logErr t r e hpc =>
      refine S.local _ v rfl rfl (by intro w e; simp [e]) rfl ?_ ?_ ?_
      · simp [Listed]
      · simp [PC.inEval]
      · intro _; simp [Fine]
    | create s loc hpc hs hl hi hv =>
      have hne : ∀ id, IsPending W id → id ≠ s.id := by
        rintro id ⟨t, ht, _⟩ rfl
        obtain ⟨⟨x, hx⟩, _⟩ := stored_eq_some.mp ht
        rw [hv] at hx; simp at hx
      have hne' : ∀ w id h, (W.worker w).pc.inEval = some (id, h) → id ≠ s.id := by
        rintro w id h hh rfl
        refine hi (C.holds w _ h ?_).1
        revert hh
        cases (W.worker w).pc <;> simp [PC.inEval, PC.handle]
      refine ⟨hu, ?_, ?_, ?_⟩
      · intro w
        by_cases e : w = v
        · simp [e, Listed]
        · have := S.listed w
          simp only [emit_worker, goto_worker, e, if_false, setDisk_worker]
          revert this
          cases (W.worker w).pc <;> simp only [Listed, emit_ids, goto_ids, List.mem_append] <;>
            first
            | exact id
            | exact fun h x hx => Or.inl (h x hx)
            | exact fun h => ⟨fun x hx => Or.inl (h.1 x hx), fun x hx => Or.inl (h.2 x hx)⟩
            | exact fun h => Or.inl h
      · intro w u id h h' h1 h2
        by_cases e : w = v
        · simp [e, PC.inEval] at h1
        · by_cases e' : u = v
          · simp [e', PC.inEval] at h2
          · simp only [emit_worker, goto_worker, e, e', if_false, setDisk_worker] at h1 h2
            exact S.unique w u id h h' h1 h2
      · intro w hf
        have hf' : Favoured W w := hf
        by_cases e : w = v
        · subst e
          simp only [emit_worker, goto_worker, if_true, Fine, emit_disk, goto_disk, setDisk_disk,
            true_and]
          refine ⟨newTrial w s loc c.now, ?_, rfl⟩
          rw [stored_eq_some]
          simp
        · simp only [emit_worker, goto_worker, e, if_false, setDisk_worker]
          refine Fine.keep (W := W) ?_ ?_ (S.fine w hf')
          · intro id hp; simp [hne id hp]
          · intro id h hh; simp [hne' w id h hh]
    | claimOk id h hpc hv =>
      refine ⟨hu, ?_, ?_, ?_⟩
      · intro w
        by_cases e : w = v
        · simp [e, Listed]
        · simpa [Listed, e] using S.listed w
      · have key : ∀ u h', u ≠ v → (W.worker u).pc.inEval = some (id, h') →
            h'.ver < (W.disk id).next := by
          intro u h' _ hh
          refine (C.holds u id h' ?_).2.1
          revert hh
          cases (W.worker u).pc <;> simp [PC.inEval, PC.handle]
        intro w u id' h1 h2 e1 e2 e3
        by_cases e : w = v
        · by_cases e' : u = v
          · rw [e, e']
          · exfalso
            simp only [e, e', emit_worker, setW_worker, if_true, if_false, PC.inEval, setDisk_worker,
              Option.some.injEq, Prod.mk.injEq] at e1 e2
            obtain ⟨rfl, rfl⟩ := e1
            have := key u h2 e' e2
            simp only at e3
            omega
        · by_cases e' : u = v
          · exfalso
            simp only [e, e', emit_worker, setW_worker, if_true, if_false, PC.inEval, setDisk_worker,
              Option.some.injEq, Prod.mk.injEq] at e1 e2
            obtain ⟨rfl, rfl⟩ := e2
            have := key w h1 e e1
            simp only at e3
            omega
          · simp only [emit_worker, setW_worker, e, e', if_false, setDisk_worker] at e1 e2
            exact S.unique w u id' h1 h2 e1 e2 e3
      · intro w hf
        have : v = w := hf v (by simp [lastClaimer, World.emit, claims])
        subst this
        simp [Fine]
    | reportOk id h t r hpc hv =>
      have hcur := (C.holds v id h (by rw [hpc]; rfl)).2.2.2 hv
      have hst := C.started v id h (by rw [hpc]; rfl)
      have hne : ∀ id', IsPending W id' → id' ≠ id := by
        rintro id' ⟨t', ht', hp⟩ rfl
        have := (stored_eq_some.mp ht').2
        rw [hcur] at this
        simp only [Option.some.injEq] at this
        subst this
        rw [hst] at hp
        simp at hp
      refine ⟨hu, ?_, ?_, ?_⟩
      · intro w
        by_cases e : w = v
        · simp [e, Listed]
        · simpa [Listed, e] using S.listed w
      · intro w u id' h1 h2 e1 e2 e3
        by_cases e : w = v
        · simp [e, PC.inEval] at e1
        · by_cases e' : u = v
          · simp [e', PC.inEval] at e2
          · simp only [emit_worker, goto_worker, e, e', if_false, setDisk_worker] at e1 e2
            exact S.unique w u id' h1 h2 e1 e2 e3
      · intro w hf
        have hf' : Favoured W w := hf
        by_cases e : w = v
        · subst e; simp [Fine]
        · have hx := S.fine w hf'
          simp only [emit_worker, goto_worker, e, if_false, setDisk_worker]
          refine Fine.keep (W := W) ?_ ?_ hx
          · intro id' hp; simp [hne id' hp]
          · intro id' h' hh
            by_cases ei : id' = id
            · exfalso
              subst ei
              refine e (S.unique w v id' h' h hh (by rw [hpc]; rfl) ?_)
              have hver : (W.disk id').ver = some h'.ver := by
                revert hx hh
                cases (W.worker w).pc <;> simp only [PC.inEval, Fine, Option.some.injEq, Prod.mk.injEq,
                  reduceCtorEq, false_implies, implies_true] <;> rintro a ⟨rfl, rfl⟩ <;> exact a
              rw [hv] at hver
              simpa using hver.symm
            · simp [ei]

theorem readable_write {W W' : World} (R : Readable W) (id : String) (v n : Nat) (t : Trial)
    (hids : W'.ids = W.ids ∨ W'.ids = W.ids ++ [id])
    (hdisk : W'.disk = fun id' => if id' = id then ⟨some v, some t, n⟩ else W.disk id') :
    Readable W' := by
  intro id' hid
  by_cases e : id' = id
  · subst e
    have : W'.stored id' = some t := stored_eq_some.mpr (by simp [hdisk])
    simp [this]
  · have h1 : W'.stored id' = W.stored id' := by simp [World.stored, hdisk, e]
    rw [h1]
    refine R id' ?_
    rcases hids with h | h
    · rwa [h] at hid
    · rw [h] at hid; simpa [e] using hid

theorem readable_step {fs st W v c W'} (R : Readable W) (s : Step fs st W v c W') :
    Readable W' := by
  cases s with
  | create s loc hpc hs hl hi hv => exact readable_write R s.id _ _ _ (Or.inr rfl) rfl
  | claimOk id h hpc hv => exact readable_write R id _ _ _ (Or.inl rfl) rfl
  | reportOk id h t r hpc hv => exact readable_write R id _ _ _ (Or.inl rfl) rfl
  | _ => exact R

theorem Safe.act {fs st W a} (C : Coh fs W) (S : Safe W) (hu : Untorn a) :
    Safe (act fs st W a) := by
  have t := act_trans fs st W a
  refine S.trans C t ?_
  cases a with
  | step w c =>
    simp only [Run.act]
    split
    · exact readable_step S.readable (stepW_step _ _ _ _ _)
    · exact S.readable
  | kill w => exact S.readable
  | killCreating w c torn => exact absurd rfl (hu w c torn)

theorem safe_run {fs st} (as : List Act) (hu : ∀ a ∈ as, Untorn a) {W : World} (C : Coh fs W)
    (S : Safe W) : Safe (run fs st W as) := by
  induction as generalizing W with
  | nil => exact S
  | cons a as ih =>
    exact ih (fun b hb => hu b (by simp [hb])) (C.trans (act_trans fs st W a))
      (S.act C (hu a (by simp)))

/-- A worker is somewhere only if the schedule let it act. -/
theorem lastClaimer_mem {fs st} {p : Nat → Prop} (as : List Act) (hby : OnlyBy p as) {v : Nat}
    (h : lastClaimer (run fs st {} as) = some v) : p v := by
  have key : ∀ as : List Act, OnlyBy p as → ∀ W : World,
      (∀ c ∈ claims W.log, p c.1) → ∀ c ∈ claims (run fs st W as).log, p c.1 := by
    intro as
    induction as with
    | nil => exact fun _ W h => h
    | cons a as ih =>
      intro hby W hW
      refine ih (fun b hb => hby b (by simp [hb])) _ ?_
      have ha := hby a (by simp)
      have t := act_trans fs st W a
      generalize act fs st W a = W' at t
      cases t with
      | step c _ _ s =>
        cases s with
        | claimOk id h hpc hv =>
          intro c hc
          simp only [World.emit, claims, List.mem_cons] at hc
          rcases hc with rfl | hc
          · exact ha
          · exact hW c hc
        | _ => exact hW
      | _ => exact hW
  have := key as hby {} (by simp [claims])
  unfold lastClaimer at h
  cases hc : claims (run fs st {} as).log with
  | nil => simp [hc] at h
  | cons x l =>
    simp only [hc, List.head?_cons, Option.map_some, Option.some.injEq] at h
    rw [← h]
    exact this x (by simp [hc])

/-! ## No trial is lost -/

/-- Every stored trial has been evaluated, or a worker has the current version in its hands. -/
def Owned (W : World) : Prop :=
  ∀ id t, W.stored id = some t → Evaluated t ∨
    ∃ w h, (W.worker w).pc.handle = some (id, h) ∧ (W.disk id).ver = some h.ver

theorem Owned.local {W : World} (S : Owned W) (W' : World) (v : Nat) (hdisk : W'.disk = W.disk)
    (hw : ∀ w, w ≠ v → (W'.worker w).pc = (W.worker w).pc)
    (hv : ∀ id h, (W.worker v).pc.handle = some (id, h) → (W.disk id).ver = some h.ver →
      (W'.worker v).pc.handle = some (id, h)) : Owned W' := by
  intro id t ht
  have ht' : W.stored id = some t := by simpa [World.stored, hdisk] using ht
  rw [hdisk]
  rcases S id t ht' with h | ⟨w, h, h1, h2⟩
  · exact Or.inl h
  · right
    by_cases e : w = v
    · subst e; exact ⟨w, h, hv id h h1 h2, h2⟩
    · exact ⟨w, h, by rw [hw w e]; exact h1, h2⟩

theorem Owned.write {W : World} (S : Owned W) (W' : World) (v : Nat) (id : String) (x n : Nat)
    (t : Trial)
    (hdisk : W'.disk = fun id' => if id' = id then ⟨some x, some t, n⟩ else W.disk id')
    (hw : ∀ w, w ≠ v → (W'.worker w).pc = (W.worker w).pc)
    (hold : ∀ id' h, (W.worker v).pc.handle = some (id', h) → id' = id)
    (hnew : Evaluated t ∨ (W'.worker v).pc.handle = some (id, ⟨t, x⟩)) : Owned W' := by
  intro id' t' ht
  by_cases e : id' = id
  · subst e
    have : t' = t := by
      have h2 := (stored_eq_some.mp ht).2
      simp only [hdisk, if_true, Option.some.injEq] at h2
      exact h2.symm
    subst this
    rcases hnew with h | h
    · exact Or.inl h
    · exact Or.inr ⟨v, _, h, by simp [hdisk]⟩
  · have ht' : W.stored id' = some t' := by simpa [World.stored, hdisk, e] using ht
    rcases S id' t' ht' with h | ⟨w, h, h1, h2⟩
    · exact Or.inl h
    · right
      have : w ≠ v := by rintro rfl; exact e (hold id' h h1)
      exact ⟨w, h, by rw [hw w this]; exact h1, by simpa [hdisk, e] using h2⟩

theorem evalTrial_understood {fs : String → Option PyFloat} {s : Settings} {c : Choice}
    (hp : ∀ v, c.outcome = .returned v → ∃ p, parseUserResult fs v s.dv.costIfNotProvided
      s.dv.learningCurveIfNotProvided = .ok p) (t : Trial) (e : PyErr) :
    evalTrial fs t s.dv c.outcome c.now c.duration ≠ .error e := by
  unfold evalTrial
  cases h : c.outcome with
  | raised x tb => simp
  | returned v =>
    obtain ⟨p, hp⟩ := hp v h
    simp [hp]

theorem Owned.step {fs s W v c W'} (C : Coh fs W) (S : Owned W) (t : Step fs s W v c W')
    (hp : ∀ x, c.outcome = .returned x → ∃ p, parseUserResult fs x s.dv.costIfNotProvided
      s.dv.learningCurveIfNotProvided = .ok p) : Owned W' := by
  cases t with
  | idle => exact S
  | move pc' m =>
    refine S.local _ v rfl (by intro w e; simp [e]) ?_
    intro id h h1 h2
    exfalso
    generalize (W.worker v).pc = pc at m h1
    cases m with
    | reportErr id' h' t r hv =>
      simp only [PC.handle, Option.some.injEq, Prod.mk.injEq] at h1
      obtain ⟨rfl, rfl⟩ := h1
      exact hv h2
    | _ => simp [PC.handle] at h1
  | fetch id h hpc hl => exact S.local _ v rfl (by intro w e; simp [e]) (by simp [hpc, PC.handle])
  | claimLost id h pc' n hpc hv ho =>
    refine S.local _ v rfl (by intro w e; simp [e]) ?_
    intro id' h' h1 h2
    simp only [hpc, PC.handle, Option.some.injEq, Prod.mk.injEq] at h1
    obtain ⟨rfl, rfl⟩ := h1
    exact absurd h2 hv
  | evalErr id h e hpc he => exact absurd he (evalTrial_understood hp _ _)
  | evalOk id h t r hpc he => exact S.local _ v rfl (by intro w e; simp [e]) (by simp [hpc, PC.handle])
  | budget t r pc' hpc ho => exact S.local _ v rfl (by intro w e; simp [e]) (by simp [hpc, PC.handle])
  | logErr t r e hpc => exact S.local _ v rfl (by intro w e; simp [e]) (by simp [hpc, PC.handle])
  | create s loc hpc hs hl hi hv =>
    exact S.write _ v s.id _ _ _ rfl (by intro w e; simp [e]) (by simp [hpc, PC.handle])
      (Or.inr (by simp [PC.handle]))
  | claimOk id h hpc hv =>
    refine S.write _ v id _ _ _ rfl (by intro w e; simp [e]) ?_ (Or.inr (by simp [PC.handle]))
    simp only [hpc, PC.handle, Option.some.injEq, Prod.mk.injEq]
    rintro _ _ ⟨rfl, _⟩; rfl
  | reportOk id h t r hpc hv =>
    obtain ⟨dv, o, a, b, hr⟩ := C.result v id h t r hpc
    refine S.write _ v id _ _ _ rfl (by intro w e; simp [e]) ?_
      (Or.inl ⟨r, rfl, (evalTrial_ok hr).2.2.1⟩)
    simp only [hpc, PC.handle, Option.some.injEq, Prod.mk.injEq]
    rintro _ _ ⟨rfl, _⟩; rfl

theorem owned_kill {W : World} (S : Owned W) (v : Nat) : Owned (W.killW v) := by
  have hpc : ∀ w', ((W.killW v).worker w').pc = (W.worker w').pc := by
    intro w'; by_cases e : w' = v <;> simp [e]
  exact S.local _ v rfl (fun w _ => hpc w) (by rw [hpc]; exact fun _ _ h _ => h)

theorem Owned.act {fs st W a} (C : Coh fs W) (S : Owned W) (hp : Understood fs st a) :
    Owned (act fs st W a) := by
  have t := act_trans fs st W a
  cases a with
  | step w c =>
    simp only [Run.act]
    split
    · exact S.step C (stepW_step _ _ _ _ _) (fun v => hp w c v rfl)
    · exact S
  | kill w => exact owned_kill S w
  | killCreating w c torn =>
    simp only [Run.act]
    split
    · next ha =>
      split
      · next s hpc hs =>
        split
        · exact owned_kill S w
        · next loc hl =>
          split
          · exact owned_kill S w
          · next hi =>
            have hd : ∀ d : Disk Trial, d.data = none → Owned
                ({ (W.setDisk s.id d) with ids := W.ids ++ [s.id] }.killW w) := by
              intro d hd
              refine owned_kill ?_ w
              intro id t ht
              have hne : id ≠ s.id := by
                rintro rfl
                have h2 := (stored_eq_some.mp ht).2
                simp [hd] at h2
              have ht' : W.stored id = some t := by simpa [World.stored, hne] using ht
              rcases S id t ht' with h | ⟨w', h, h1, h2⟩
              · exact Or.inl h
              · exact Or.inr ⟨w', h, h1, by simpa [hne] using h2⟩
            refine hd _ ?_
            have := (C.fresh _ hi).2
            cases torn <;> simp [Store.bump, this]
      · exact owned_kill S w
    · exact S

theorem owned_run {fs st} (as : List Act) (hp : ∀ a ∈ as, Understood fs st a) {W : World}
    (C : Coh fs W) (S : Owned W) : Owned (run fs st W as) := by
  induction as generalizing W with
  | nil => exact S
  | cons a as ih =>
    exact ih (fun b hb => hp b (by simp [hb])) (C.trans (act_trans fs st W a))
      (S.act C (hp a (by simp)))

/-! ## Exceptions with a cause outside the protocol -/

/-- No worker died because the objective returned nonsense, nor because the optimizer did not answer,
unless `P` holds. -/
def Served (P : World → Prop) (W : World) : Prop :=
  ∀ w e, (W.worker w).pc = .raised e → (e = .failedToGetNext → P W) ∧ ∀ x, e ≠ .evaluation x

theorem Served.local {P : World → Prop} {W : World} (S : Served P W) (W' : World) (v : Nat)
    (hm : P W → P W') (hw : ∀ w, w ≠ v → (W'.worker w).pc = (W.worker w).pc)
    (hv : ∀ e, (W'.worker v).pc = .raised e →
      (e = .failedToGetNext → P W) ∧ ∀ x, e ≠ .evaluation x) :
    Served P W' := by
  intro w e h
  by_cases hwv : w = v
  · subst hwv; exact ⟨fun x => hm ((hv e h).1 x), (hv e h).2⟩
  · rw [hw w hwv] at h; exact ⟨fun x => hm ((S w e h).1 x), (S w e h).2⟩

theorem sample_creates {fs s W v c} (C : Coh fs W) (R : Readable W) (hpc : (W.worker v).pc = .sample)
    (ha : ∃ p, c.ask = some p ∧ p.id ∉ W.ids ∧ ∀ q, p.previousId = some q → q ∈ W.ids) :
    ∃ p h, ((stepW fs s W v c).worker v).pc = .claim p h := by
  obtain ⟨p, hp, hi, hq⟩ := ha
  obtain ⟨loc, hloc⟩ := prepareSample_readable R hq
  have hn : ∃ h d, Store.new (newTrial v p loc c.now) (W.disk p.id) = (.ok h, d) := by
    simp [Store.new, (C.fresh _ hi).1, Store.bump, Store.write]
  obtain ⟨h, d, hn⟩ := hn
  refine ⟨p.id, h, ?_⟩
  simp [stepW, hpc, hp, hloc, hi, hn]

theorem Served.act {P : World → Prop} {fs st W a} (C : Coh fs W) (Q : Safe W) (S : Served P W)
    (hm : P W → P (act fs st W a)) (hp : Understood fs st a) (ha : Answered W a ∨ P W)
    (hu : Untorn a) : Served P (act fs st W a) := by
  cases a with
  | killCreating w c torn => exact absurd rfl (hu w c torn)
  | kill w =>
    have hpc : ∀ w', ((W.killW w).worker w').pc = (W.worker w').pc := by
      intro w'; by_cases e : w' = w <;> simp [e]
    exact S.local _ w hm (fun w' _ => hpc w') (by simp only [Run.act]; rw [hpc]; exact S w)
  | step v c =>
    have t := act_trans fs st W (.step v c)
    refine S.local _ v hm (fun w hw => by rw [t.other hw]) ?_
    clear hm
    simp only [Run.act]
    split
    swap
    · exact S v
    by_cases hpc : (W.worker v).pc = .sample ∧ ¬ P W
    · obtain ⟨p, h, hx⟩ := sample_creates (fs := fs) (s := st v) C Q.readable hpc.1
        ((ha.resolve_right hpc.2) v c rfl hpc.1)
      rw [hx]; simp
    have hload : ∀ id ∈ W.ids, ∀ e, Store.load (W.disk id) ≠ .error e := by
      intro id hid e he
      obtain ⟨t, ht⟩ := Option.isSome_iff_exists.mp (Q.readable id hid)
      obtain ⟨x, hx, _⟩ := load_of_stored ht
      rw [hx] at he
      simp at he
    have s := stepW_step fs (st v) W v c
    generalize stepW fs (st v) W v c = W' at s
    cases s with
    | idle => exact S v
    | move pc' m =>
      have hl := Q.listed v
      simp only [goto_worker, if_true]
      generalize (W.worker v).pc = pc at m hl hpc
      cases m with
      | pendErr id todo found e he => exact absurd he (hload id (hl.1 id (by simp)) e)
      | fetchErr id e he => exact absurd he (hload id hl e)
      | sampleErr =>
        intro e he
        simp only [PC.raised.injEq] at he
        subst he
        refine ⟨fun _ => ?_, by simp⟩
        by_contra hn
        exact hpc ⟨rfl, hn⟩
      | raiseTop | raiseErr | sweepErr | reportErr => simp
      | _ => simp
    | claimLost id h pc' n hpc hv ho =>
      simp only [emit_worker, setW_worker, if_true]
      rcases ho with ⟨rfl, _⟩ | rfl | rfl <;> simp
    | evalErr id h e hpc he => exact absurd he (evalTrial_understood (fun x => hp v c x rfl) _ _)
    | budget t r pc' hpc ho =>
      simp only [emit_worker, goto_worker, if_true]
      rcases ho with ⟨rfl, _⟩ | ⟨_, _, rfl⟩ <;> simp
    | _ => simp

end Neps.Run
