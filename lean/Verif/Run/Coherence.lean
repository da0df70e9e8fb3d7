import Verif.Run.Lemmas
import Verif.Run.Spec

/-!
# The basic invariant of the worker system
-/

namespace Neps.Run

open Neps.Store (Disk Handle)

/-- The handle a worker holds between fetching a trial and putting it back. -/
def PC.handle : PC → Option (String × Handle Trial)
  | .claim id h | .eval id h | .report id h _ _ => some (id, h)
  | _ => none

/-- The handle of a worker that has claimed a trial. -/
def PC.inEval : PC → Option (String × Handle Trial)
  | .eval id h | .report id h _ _ => some (id, h)
  | _ => none

theorem PC.inEval_none {pc : PC} (h : pc.handle = none) : pc.inEval = none := by
  cases pc <;> simp_all [PC.handle, PC.inEval]

/-- The basic invariant: a handle whose version is current has the current content, etc. -/
structure Coh (fs : String → Option PyFloat) (W : World) : Prop where
  nodup : W.ids.Nodup
  fresh : ∀ id, id ∉ W.ids → (W.disk id).ver = none ∧ (W.disk id).data = none
  verLt : ∀ id v, (W.disk id).ver = some v → v < (W.disk id).next
  names : ∀ id t, (W.disk id).data = some t → t.metadata.id = id
  holds : ∀ w id h, (W.worker w).pc.handle = some (id, h) → id ∈ W.ids ∧
    h.ver < (W.disk id).next ∧ h.cur.metadata.id = id ∧
    ((W.disk id).ver = some h.ver → (W.disk id).data = some h.cur)
  started : ∀ w id h, (W.worker w).pc.inEval = some (id, h) → h.cur.state = .evaluating
  result : ∀ w id h t r, (W.worker w).pc = .report id h t r →
    ∃ dv o a b, evalTrial fs h.cur dv o a b = .ok (t, r)

theorem evalTrial_ok {fs t₀ dv o a b t r} (h : evalTrial fs t₀ dv o a b = .ok (t, r)) :
    t.sampledPart = t₀.sampledPart ∧ t.report = t₀.report ∧ t.state = r.reportedAs.state ∧
    r.trialId = t₀.metadata.id := by
  unfold evalTrial at h
  split at h
  · simp only [Trial.setComplete, Except.ok.injEq, Prod.mk.injEq] at h
    obtain ⟨rfl, rfl⟩ := h
    simp [Trial.sampledPart]
  · split at h
    · simp at h
    · simp only [Trial.setComplete, Except.ok.injEq, Prod.mk.injEq] at h
      obtain ⟨rfl, rfl⟩ := h
      simp [Trial.sampledPart]

theorem load_some {D : Type} {d : Disk D} {v x} (hv : d.ver = some v) (hd : d.data = some x) :
    Store.load d = .ok ⟨x, v⟩ := by
  simp [Store.load, Store.read, hv, hd]

theorem stored_eq_some {W : World} {id : String} {t : Trial} :
    W.stored id = some t ↔ (∃ v, (W.disk id).ver = some v) ∧ (W.disk id).data = some t := by
  unfold World.stored
  constructor
  · intro h
    split at h
    · next h' hh =>
      simp only [Option.some.injEq] at h
      obtain ⟨a, b⟩ := load_ok hh
      exact ⟨⟨_, a⟩, h ▸ b⟩
    · simp at h
  · rintro ⟨⟨v, hv⟩, hd⟩
    simp [load_some hv hd]

theorem Move.handle_none {st W x pc pc'} (m : Move st W x pc pc') : pc'.handle = none := by
  cases m <;> rfl

theorem Coh.init (fs) : Coh fs {} where
  nodup := by simp
  fresh := by simp [Disk.empty]
  verLt := by simp [Disk.empty]
  names := by simp [Disk.empty]
  holds := by simp [PC.handle]
  started := by simp [PC.inEval]
  result := by simp

/-- Changing only the program counter to one without a handle. -/
theorem Coh.local {fs W} (I : Coh fs W) (W' : World) (w : Nat) (hids : W'.ids = W.ids)
    (hdisk : W'.disk = W.disk)
    (hw : ∀ w', w' ≠ w → (W'.worker w').pc = (W.worker w').pc)
    (hn : (W'.worker w).pc.handle = none) : Coh fs W' where
  nodup := hids ▸ I.nodup
  fresh := by rw [hids, hdisk]; exact I.fresh
  verLt := by rw [hdisk]; exact I.verLt
  names := by rw [hdisk]; exact I.names
  holds := by
    intro w' id h hh
    rw [hids, hdisk]
    by_cases e : w' = w
    · subst e; rw [hn] at hh; simp at hh
    · rw [hw w' e] at hh; exact I.holds w' id h hh
  started := by
    intro w' id h hh
    by_cases e : w' = w
    · subst e; rw [PC.inEval_none hn] at hh; simp at hh
    · rw [hw w' e] at hh; exact I.started w' id h hh
  result := by
    intro w' id h t r hh
    by_cases e : w' = w
    · subst e; rw [hh] at hn; simp [PC.handle] at hn
    · rw [hw w' e] at hh; exact I.result w' id h t r hh

/-- A put or a creation by worker `w`: `id` gets a new version and the new content `t`, and the
worker may keep a handle to it. -/
theorem Coh.write {fs W} (I : Coh fs W) (W' : World) (w : Nat) (id : String) (t : Trial)
    (hids : W'.ids = W.ids ∧ id ∈ W.ids ∨ W'.ids = W.ids ++ [id] ∧ id ∉ W.ids)
    (hdisk : W'.disk = fun id' => if id' = id then
      ⟨some (W.disk id).next, some t, (W.disk id).next + 1⟩ else W.disk id')
    (hw : ∀ w', w' ≠ w → (W'.worker w').pc = (W.worker w').pc)
    (hid : t.metadata.id = id)
    (hn : (W'.worker w).pc.handle = none ∨
      (W'.worker w).pc.handle = some (id, ⟨t, (W.disk id).next⟩))
    (hstarted : ∀ id h, (W'.worker w).pc.inEval = some (id, h) → h.cur.state = .evaluating)
    (hresult : ∀ id h t r, (W'.worker w).pc ≠ .report id h t r) : Coh fs W' where
  nodup := by
    rcases hids with ⟨h, _⟩ | ⟨h, hi⟩
    · exact h ▸ I.nodup
    · rw [h, List.nodup_append]
      exact ⟨I.nodup, by simp, by
        intro a ha b hb
        simp only [List.mem_singleton] at hb
        subst hb
        exact fun e => hi (e ▸ ha)⟩
  fresh := by
    intro id' hid'
    rw [hdisk]
    have : id' ∉ W.ids ∧ id' ≠ id := by
      rcases hids with ⟨h, hi⟩ | ⟨h, hi⟩
      · rw [h] at hid'; exact ⟨hid', fun e => hid' (e ▸ hi)⟩
      · rw [h] at hid'; simp at hid'; exact hid'
    simp only [this.2, if_false]
    exact I.fresh id' this.1
  verLt := by
    intro id' v
    rw [hdisk]
    by_cases e : id' = id
    · simp only [e, if_true, Option.some.injEq]; omega
    · simp only [e, if_false]; exact I.verLt id' v
  names := by
    intro id' t'
    rw [hdisk]
    by_cases e : id' = id
    · simp only [e, if_true, Option.some.injEq]; rintro rfl; exact hid
    · simp only [e, if_false]; exact I.names id' t'
  holds := by
    intro w' id' h hh
    by_cases e : w' = w
    · subst e
      rcases hn with hn | hn
      · rw [hn] at hh; simp at hh
      · rw [hn] at hh
        simp only [Option.some.injEq, Prod.mk.injEq] at hh
        obtain ⟨rfl, rfl⟩ := hh
        refine ⟨?_, ?_, hid, ?_⟩
        · rcases hids with ⟨h, hi⟩ | ⟨h, hi⟩
          · rw [h]; exact hi
          · rw [h]; simp
        · rw [hdisk]; simp
        · rw [hdisk]; simp
    · rw [hw w' e] at hh
      obtain ⟨h1, h2, h3, h4⟩ := I.holds w' id' h hh
      refine ⟨?_, ?_, h3, ?_⟩
      · rcases hids with ⟨h, hi⟩ | ⟨h, hi⟩
        · rw [h]; exact h1
        · rw [h]; simp [h1]
      · rw [hdisk]
        by_cases e' : id' = id
        · subst e'; simp only [if_true]; omega
        · simp only [e', if_false]; exact h2
      · rw [hdisk]
        by_cases e' : id' = id
        · subst e'; simp only [if_true, Option.some.injEq]; omega
        · simp only [e', if_false]; exact h4
  started := by
    intro w' id h hh
    by_cases e : w' = w
    · subst e; exact hstarted id h hh
    · rw [hw w' e] at hh; exact I.started w' id h hh
  result := by
    intro w' id h t r hh
    by_cases e : w' = w
    · subst e; exact absurd hh (hresult id h t r)
    · rw [hw w' e] at hh; exact I.result w' id h t r hh

/-- The worker at `w` takes over a handle that is coherent; nothing else changes. -/
theorem Coh.take {fs W} (I : Coh fs W) (W' : World) (w : Nat) (id : String) (h : Handle Trial)
    (hids : W'.ids = W.ids) (hdisk : W'.disk = W.disk)
    (hw : ∀ w', w' ≠ w → (W'.worker w').pc = (W.worker w').pc)
    (hn : (W'.worker w).pc.handle = some (id, h))
    (hh : id ∈ W.ids ∧ h.ver < (W.disk id).next ∧ h.cur.metadata.id = id ∧
      ((W.disk id).ver = some h.ver → (W.disk id).data = some h.cur))
    (hstarted : ∀ id h, (W'.worker w).pc.inEval = some (id, h) → h.cur.state = .evaluating)
    (hresult : ∀ id h t r, (W'.worker w).pc = .report id h t r →
      ∃ dv o a b, evalTrial fs h.cur dv o a b = .ok (t, r)) : Coh fs W' where
  nodup := hids ▸ I.nodup
  fresh := by rw [hids, hdisk]; exact I.fresh
  verLt := by rw [hdisk]; exact I.verLt
  names := by rw [hdisk]; exact I.names
  holds := by
    intro w' id' h' hh'
    rw [hids, hdisk]
    by_cases e : w' = w
    · subst e
      rw [hn] at hh'
      simp only [Option.some.injEq, Prod.mk.injEq] at hh'
      obtain ⟨rfl, rfl⟩ := hh'
      exact hh
    · rw [hw w' e] at hh'; exact I.holds w' id' h' hh'
  started := by
    intro w' id h hh
    by_cases e : w' = w
    · subst e; exact hstarted id h hh
    · rw [hw w' e] at hh; exact I.started w' id h hh
  result := by
    intro w' id h t r hh
    by_cases e : w' = w
    · subst e; exact hresult id h t r hh
    · rw [hw w' e] at hh; exact I.result w' id h t r hh

theorem load_ok_mem {fs W} (I : Coh fs W) {id h} (e : Store.load (W.disk id) = .ok h) :
    id ∈ W.ids := by
  by_contra hn
  have := (I.fresh id hn).1
  rw [(load_ok e).1] at this
  simp at this

theorem Coh.trans {fs st W w W'} (I : Coh fs W) (t : Trans fs st W w W') : Coh fs W' := by
  cases t with
  | idle => exact I
  | kill =>
    have hpc : ∀ w', ((W.killW w).worker w').pc = (W.worker w').pc := by
      intro w'; by_cases e : w' = w <;> simp [e]
    exact
      { nodup := I.nodup, fresh := I.fresh, verLt := I.verLt, names := I.names
        holds := by intro w'; rw [hpc]; exact I.holds w'
        started := by intro w'; rw [hpc]; exact I.started w'
        result := by intro w'; rw [hpc]; exact I.result w' }
  | torn s loc v n ha hpc hl hi hvn =>
    have hf := I.fresh s.id hi
    have hpc : ∀ w' : Nat, ((if w' = w then { W.worker w with alive := false } else W.worker w')).pc
        = (W.worker w').pc := by
      intro w'; by_cases e : w' = w <;> simp [e]
    have hne : ∀ w' id h, (W.worker w').pc.handle = some (id, h) → id ≠ s.id := by
      intro w' id h hh e
      exact hi (e ▸ (I.holds w' id h hh).1)
    refine
      { nodup := ?_, fresh := ?_, verLt := ?_, names := ?_, holds := ?_, started := ?_,
        result := ?_ }
    · simp only [killW_ids]
      rw [List.nodup_append]
      exact ⟨I.nodup, by simp, by
        intro a ha b hb
        simp only [List.mem_singleton] at hb
        subst hb
        exact fun e => hi (e ▸ ha)⟩
    · intro id hid
      simp only [killW_ids, List.mem_append, List.mem_singleton, not_or] at hid
      simp only [killW_disk, setDisk_disk, hid.2, if_false]
      exact I.fresh id hid.1
    · intro id v'
      simp only [killW_disk, setDisk_disk]
      by_cases e : id = s.id
      · simp only [e, if_true]
        rcases hvn with ⟨rfl, rfl⟩ | ⟨rfl, rfl⟩
        · rw [hf.1]; simp
        · simp only [Option.some.injEq]; omega
      · simp only [e, if_false]; exact I.verLt id v'
    · intro id t
      simp only [killW_disk, setDisk_disk]
      by_cases e : id = s.id
      · simp only [e, if_true]; rw [hf.2]; simp
      · simp only [e, if_false]; exact I.names id t
    · intro w' id h
      simp only [killW_disk, setDisk_disk, killW_worker, setDisk_worker, killW_ids]
      rw [hpc]
      intro hh
      have := hne w' id h hh
      simp only [this, if_false, List.mem_append, List.mem_singleton, or_false]
      exact I.holds w' id h hh
    · intro w' id h
      simp only [killW_worker, setDisk_worker]
      rw [hpc]; exact I.started w' id h
    · intro w' id h
      simp only [killW_worker, setDisk_worker]
      rw [hpc]; exact I.result w' id h
  | step c _ ha s =>
    cases s with
    | idle => exact I
    | move pc' m =>
      exact I.local _ w rfl rfl (by intro w' e; simp [e]) (by simpa using m.handle_none)
    | fetch id h hpc hl =>
      obtain ⟨hv, hd⟩ := load_ok hl
      exact I.take _ w id h rfl rfl (by intro w' e; simp [e]) (by simp [PC.handle])
        ⟨load_ok_mem I hl, I.verLt id _ hv, I.names id _ hd, fun _ => hd⟩ (by simp [PC.inEval]) (by simp)
    | create s loc hpc hs hl hi hv =>
      exact I.write _ w s.id (newTrial w s loc c.now) (Or.inr ⟨rfl, hi⟩) rfl
        (by intro w' e; simp [e]) rfl (Or.inr (by simp [PC.handle])) (by simp [PC.inEval]) (by simp)
    | claimOk id h hpc hv =>
      obtain ⟨h1, h2, h3, h4⟩ := I.holds w id h (by rw [hpc]; rfl)
      exact I.write _ w id (h.cur.setEvaluating c.now (workerName w)) (Or.inl ⟨rfl, h1⟩) rfl
        (by intro w' e; simp [e]) h3 (Or.inr (by simp [PC.handle]))
        (by simp only [emit_worker, setW_worker, if_true, PC.inEval, Option.some.injEq, Prod.mk.injEq]
            rintro id' h' ⟨rfl, rfl⟩; rfl) (by simp)
    | claimLost id h pc' n hpc hv ho =>
      refine I.local _ w rfl rfl (by intro w' e; simp [e]) ?_
      simp only [emit_worker, setW_worker, if_true]
      rcases ho with ⟨rfl, _⟩ | rfl | rfl <;> rfl
    | evalErr id h e hpc he =>
      exact I.local _ w rfl rfl (by intro w' e; simp [e]) (by simp [PC.handle])
    | evalOk id h t r hpc he =>
      refine I.take _ w id h rfl rfl (by intro w' e; simp [e]) (by simp [PC.handle])
        (I.holds w id h (by rw [hpc]; rfl))
        (by simp only [emit_worker, setW_worker, if_true, PC.inEval, Option.some.injEq, Prod.mk.injEq]
            rintro id' h' ⟨rfl, rfl⟩; exact I.started w _ _ (by rw [hpc]; rfl)) ?_
      simp only [emit_worker, setW_worker, if_true, PC.report.injEq]
      rintro _ _ _ _ ⟨rfl, rfl, rfl, rfl⟩
      exact ⟨_, _, _, _, he⟩
    | reportOk id h t r hpc hv =>
      obtain ⟨h1, h2, h3, h4⟩ := I.holds w id h (by rw [hpc]; rfl)
      obtain ⟨dv, o, a, b, hr⟩ := I.result w id h t r hpc
      have hid : t.metadata.id = id := by
        have := congrArg SampledPart.id (evalTrial_ok hr).1
        simpa [Trial.sampledPart, h3] using this
      exact I.write _ w id { t with report := some r } (Or.inl ⟨rfl, h1⟩) rfl
        (by intro w' e; simp [e]) hid (Or.inl (by simp [PC.handle])) (by simp [PC.inEval]) (by simp)
    | budget t r pc' hpc ho =>
      refine I.local _ w rfl rfl (by intro w' e; simp [e]) ?_
      simp only [emit_worker, goto_worker, if_true]
      rcases ho with ⟨rfl, _⟩ | ⟨_, _, rfl⟩ <;> rfl
    | logErr t r e hpc =>
      exact I.local _ w rfl rfl (by intro w' e; simp [e]) (by simp [PC.handle])

theorem coh_run (fs st as) : Coh fs (run fs st {} as) :=
  run_induction fs st (fun _ _ _ I t => I.trans t) (Coh.init fs) as

/-- What a transition does to the stored trials, and to the claims in the log. -/
inductive Effect (fs : String → Option PyFloat) (W : World) (w : Nat) (W' : World) : Prop
  | none : W'.ids = W.ids → W'.disk = W.disk → claims W'.log = claims W.log → Effect fs W w W'
  | created (id t) : id ∉ W.ids → W'.ids = W.ids ++ [id] →
      (W'.disk = fun id' => if id' = id then
        ⟨some (W.disk id).next, some t, (W.disk id).next + 1⟩ else W.disk id') →
      t.state = .pending → t.report = .none → t.metadata.id = id →
      claims W'.log = claims W.log → (W'.worker w).pc.handle = some (id, ⟨t, (W.disk id).next⟩) →
      (W.worker w).pc = .sample →
      Effect fs W w W'
  | torn (id v n) : id ∉ W.ids → W'.ids = W.ids ++ [id] →
      (W'.disk = fun id' => if id' = id then ⟨v, Option.none, n⟩ else W.disk id') →
      claims W'.log = claims W.log → Effect fs W w W'
  | claimed (id h now) : id ∈ W.ids → (W.worker w).pc = .claim id h →
      (W.disk id).ver = some h.ver → (W.disk id).data = some h.cur →
      W'.ids = W.ids →
      (W'.disk = fun id' => if id' = id then
        ⟨some (W.disk id).next, some (h.cur.setEvaluating now (workerName w)),
          (W.disk id).next + 1⟩ else W.disk id') →
      claims W'.log = (w, id, h.cur) :: claims W.log → Effect fs W w W'
  | reported (id h t r) : id ∈ W.ids → (W.worker w).pc = .report id h t r →
      (W.disk id).ver = some h.ver → (W.disk id).data = some h.cur →
      h.cur.state = .evaluating → t.sampledPart = h.cur.sampledPart →
      t.state = r.reportedAs.state → r.trialId = id →
      W'.ids = W.ids →
      (W'.disk = fun id' => if id' = id then
        ⟨some (W.disk id).next, some { t with report := some r },
          (W.disk id).next + 1⟩ else W.disk id') →
      claims W'.log = claims W.log → Effect fs W w W'

theorem Coh.effect {fs st W w W'} (I : Coh fs W) (t : Trans fs st W w W') : Effect fs W w W' := by
  cases t with
  | idle => exact .none rfl rfl rfl
  | kill => exact .none rfl rfl rfl
  | torn s loc v n ha hpc hl hi hvn =>
    exact .torn s.id v n hi rfl (by simp [(I.fresh s.id hi).2]) rfl
  | step c _ ha s =>
    cases s with
    | idle => exact .none rfl rfl rfl
    | move pc' m => exact .none rfl rfl rfl
    | fetch id h hpc hl => exact .none rfl rfl rfl
    | create s loc hpc hs hl hi hv =>
      exact .created s.id (newTrial w s loc c.now) hi rfl rfl rfl rfl rfl rfl
        (by simp [PC.handle]) hpc
    | claimOk id h hpc hv =>
      obtain ⟨h1, h2, h3, h4⟩ := I.holds w id h (by rw [hpc]; rfl)
      exact .claimed id h c.now h1 hpc hv (h4 hv) rfl rfl rfl
    | claimLost id h pc' n hpc hv ho => exact .none rfl rfl rfl
    | evalErr id h e hpc he => exact .none rfl rfl rfl
    | evalOk id h t r hpc he => exact .none rfl rfl rfl
    | reportOk id h t r hpc hv =>
      obtain ⟨h1, h2, h3, h4⟩ := I.holds w id h (by rw [hpc]; rfl)
      obtain ⟨dv, o, a, b, hr⟩ := I.result w id h t r hpc
      obtain ⟨e1, e2, e3, e4⟩ := evalTrial_ok hr
      exact .reported id h t r h1 hpc hv (h4 hv) (I.started w id h (by rw [hpc]; rfl)) e1 e3
        (e4.trans h3) rfl rfl rfl
    | budget t r pc' hpc ho => exact .none rfl rfl rfl
    | logErr t r e hpc => exact .none rfl rfl rfl

end Neps.Run
