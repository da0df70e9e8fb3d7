import Verif.Store.Spec

namespace Neps.Store

variable {D : Type}

/-- The invariant tying the state of the model to the log of finished calls. -/
structure Inv (W : World D) (log : List (Event D)) : Prop where
  unborn : W.disk.ver = none → (∀ w, W.handle w = none) ∧ lastWrite log = none
  born : ∀ v, W.disk.ver = some v → v < W.disk.next ∧ W.disk.data = lastWrite log ∧
    (lastWrite log).isSome
  hver : ∀ w h, W.handle w = some h → h.ver < W.disk.next
  coherent : ∀ w h, W.handle w = some h → some h.ver = W.disk.ver → W.disk.data = some h.cur
  hasHandle : ∀ w, (W.handle w).isSome = opened w log
  fresh : ∀ w h, W.handle w = some h → (some h.ver = W.disk.ver ↔ inDate w log = true)

theorem inv_init : Inv (World.init : World D) [] where
  unborn _ := ⟨fun _ => rfl, rfl⟩
  born v h := by simp [World.init, Disk.empty] at h
  hver w h e := by simp [World.init] at e
  coherent w h e := by simp [World.init] at e
  hasHandle w := by simp [World.init, opened]
  fresh w h e := by simp [World.init] at e

/-- A call that raises and changes nothing preserves the invariant. -/
theorem Inv.raised {W : World D} {log} (I : Inv W log) (w : Nat) (e : Err) :
    Inv W (⟨w, .raised e⟩ :: log) where
  unborn h := by simpa [lastWrite] using I.unborn h
  born v h := by simpa [lastWrite] using I.born v h
  hver := I.hver
  coherent := I.coherent
  hasHandle w' := by simp [opened, Event.isOk, I.hasHandle w']
  fresh w' h hw := by simpa [inDate, Event.isOk, Event.isWrite] using I.fresh w' h hw

/-- A call that returns the stored value, leaving worker `w` with an up-to-date handle. -/
theorem Inv.got {W : World D} {log} (I : Inv W log) (w : Nat) (v : Nat) (x : D)
    (hv : W.disk.ver = some v) (hx : W.disk.data = some x) :
    Inv ⟨W.disk, setHandle W.handle w ⟨x, v⟩⟩ (⟨w, .got x⟩ :: log) where
  unborn h := by simp [hv] at h
  born v' h := by simpa [lastWrite] using I.born v' h
  hver w' h hw := by
    simp only [setHandle] at hw
    split at hw
    · simp only [Option.some.injEq] at hw
      subst hw
      exact (I.born v hv).1
    · exact I.hver w' h hw
  coherent w' h hw he := by
    simp only [setHandle] at hw
    split at hw
    · simp only [Option.some.injEq] at hw
      subst hw
      exact hx
    · exact I.coherent w' h hw he
  hasHandle w' := by
    simp only [setHandle]
    split
    · next h => simp [opened, Event.isOk, h]
    · next h =>
      have := I.hasHandle w'
      simp [opened, Event.isOk, Ne.symm h, this]
  fresh w' h hw := by
    simp only [setHandle] at hw
    split at hw
    · next hww =>
      simp only [Option.some.injEq] at hw
      subst hw
      simp [inDate, hww, Event.isOk, hv]
    · next hww =>
      have := I.fresh w' h hw
      simp [inDate, Ne.symm hww, Event.isOk, Event.isWrite, this]

/-- A write: fresh version, new data, handle of `w` up to date. -/
theorem Inv.wrote {W : World D} {log} (I : Inv W log) (w : Nat) (x : D) :
    Inv ⟨(bump (write x W.disk)).2, setHandle W.handle w ⟨x, W.disk.next⟩⟩
      (⟨w, .wrote x⟩ :: log) where
  unborn h := by simp [bump] at h
  born v' h := by
    simp only [bump, write, Option.some.injEq] at h
    subst h
    simp [lastWrite, bump, write]
  hver w' h hw := by
    simp only [setHandle] at hw
    split at hw
    · simp only [Option.some.injEq] at hw
      subst hw
      simp [bump, write]
    · have := I.hver w' h hw
      simp only [bump, write]
      omega
  coherent w' h hw he := by
    simp only [setHandle] at hw
    split at hw
    · simp only [Option.some.injEq] at hw
      subst hw
      simp [bump, write]
    · have := I.hver w' h hw
      simp only [bump, write, Option.some.injEq] at he
      omega
  hasHandle w' := by
    simp only [setHandle]
    split
    · next h => simp [opened, Event.isOk, h]
    · next h =>
      have := I.hasHandle w'
      simp [opened, Event.isOk, Ne.symm h, this]
  fresh w' h hw := by
    simp only [setHandle] at hw
    split at hw
    · next hww =>
      simp only [Option.some.injEq] at hw
      subst hw
      simp [inDate, hww, Event.isOk, bump, write]
    · next hww =>
      have := I.hver w' h hw
      simp only [bump, write, Option.some.injEq, inDate, Ne.symm hww, false_and, if_false,
        Event.isWrite, if_true, Bool.false_eq_true, iff_false]
      omega

theorem new_spec (x : D) (d : Disk D) :
    new x d = if d.ver = none then (.ok ⟨x, d.next⟩, (bump (write x d)).2)
      else (.error .alreadyExists, d) := by
  unfold new
  cases h : d.ver <;> simp [bump, write]

theorem Inv.load_spec {W : World D} {log} (I : Inv W log) :
    load W.disk = match W.disk.ver, lastWrite log with
      | some v, some x => .ok ⟨x, v⟩
      | _, _ => .error .doesNotExist := by
  unfold load
  cases h : W.disk.ver with
  | none => simp
  | some v =>
    have := I.born v h
    obtain ⟨_, hd, hs⟩ := this
    obtain ⟨x, hx⟩ := Option.isSome_iff_exists.1 hs
    simp [read, hd, hx]

theorem Inv.sync_spec {W : World D} {log} (I : Inv W log) {w : Nat} {h : Handle D}
    (hw : W.handle w = some h) :
    ∃ v x, W.disk.ver = some v ∧ W.disk.data = some x ∧ lastWrite log = some x ∧
      sync h W.disk = .ok ⟨x, v⟩ := by
  cases hv : W.disk.ver with
  | none => simp [(I.unborn hv).1] at hw
  | some v =>
    obtain ⟨_, hd, hs⟩ := I.born v hv
    obtain ⟨x, hx⟩ := Option.isSome_iff_exists.1 hs
    refine ⟨v, x, rfl, by rw [hd, hx], hx, ?_⟩
    unfold sync
    simp only [hv]
    split
    · next e =>
      have := I.coherent w h hw (by rw [e, hv])
      rw [hd, hx] at this
      simp only [Option.some.injEq] at this
      obtain ⟨c, v'⟩ := h
      simp only at e this
      subst e this
      rfl
    · simp [read, hd, hx]

theorem put_spec (x : D) (h : Handle D) (d : Disk D) :
    put x h d = if some h.ver = d.ver then (.ok ⟨x, d.next⟩, (bump (write x d)).2)
      else (.error .mismatch, d) := by
  unfold put
  simp [bump, write]

theorem Inv.step {W : World D} {log} (I : Inv W log) (w : Nat) (op : Op D) :
    Inv (step W w op).1 (⟨w, (step W w op).2⟩ :: log) := by
  cases op with
  | create x =>
    simp only [Store.step, new_spec]
    split
    · next h =>
      split at h
      · simp only [Prod.mk.injEq, Except.ok.injEq] at h
        obtain ⟨rfl, rfl⟩ := h
        exact I.wrote w x
      · simp at h
    · next h =>
      split at h
      · simp at h
      · simp only [Prod.mk.injEq, Except.error.injEq] at h
        obtain ⟨rfl, rfl⟩ := h
        exact I.raised w _
  | load =>
    simp only [Store.step, I.load_spec]
    cases hv : W.disk.ver with
    | none => exact I.raised w _
    | some v =>
      obtain ⟨_, hd, hs⟩ := I.born v hv
      obtain ⟨x, hx⟩ := Option.isSome_iff_exists.1 hs
      simp only [hx]
      exact I.got w v x hv (by rw [hd, hx])
  | newOrLoad x =>
    cases hv : W.disk.ver with
    | none =>
      simp only [Store.step, newOrLoad, new_spec, hv, if_true]
      exact I.wrote w x
    | some v =>
      obtain ⟨_, hd, hs⟩ := I.born v hv
      obtain ⟨y, hy⟩ := Option.isSome_iff_exists.1 hs
      simp only [Store.step, newOrLoad, new_spec, hv, reduceCtorEq, if_false, I.load_spec, hy]
      exact I.got w v y hv (by rw [hd, hy])
  | synced =>
    simp only [Store.step]
    cases hw : W.handle w with
    | none => exact I.raised w _
    | some h =>
      obtain ⟨v, x, hv, hx, -, hs⟩ := I.sync_spec hw
      simp only [hs]
      exact I.got w v x hv hx
  | put x =>
    simp only [Store.step]
    cases hw : W.handle w with
    | none => exact I.raised w _
    | some h =>
      simp only [put_spec]
      by_cases hc : some h.ver = W.disk.ver
      · simp only [hc, if_true]
        exact I.wrote w x
      · simp only [hc, if_false]
        exact I.raised w _
  | acquire f =>
    simp only [Store.step]
    cases hw : W.handle w with
    | none => exact I.raised w _
    | some h =>
      obtain ⟨v, x, hv, hx, -, hs⟩ := I.sync_spec hw
      simp only [hs]
      cases f x with
      | none => exact I.got w v x hv hx
      | some y =>
        simp only [put_spec, hv, if_true]
        exact I.wrote w y

theorem run_append (W : World D) (s t : List (Nat × Op D)) :
    run W (s ++ t) = ((run (run W s).1 t).1, (run (run W s).1 t).2 ++ (run W s).2) := by
  induction s generalizing W with
  | nil => simp [run]
  | cons a s ih =>
    obtain ⟨w, op⟩ := a
    simp [run, ih]

theorem Inv.run {W : World D} {log} (I : Inv W log) (s : List (Nat × Op D)) :
    Inv (run W s).1 ((run W s).2 ++ log) := by
  induction s generalizing W log with
  | nil => simpa [Store.run] using I
  | cons a s ih =>
    obtain ⟨w, op⟩ := a
    have := ih (I.step w op)
    simpa [Store.run] using this

theorem inv_run (s : List (Nat × Op D)) :
    Inv (run (World.init : World D) s).1 (run (World.init : World D) s).2 := by
  simpa using (inv_init (D := D)).run s

end Neps.Store
