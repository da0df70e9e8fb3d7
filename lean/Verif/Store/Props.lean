import Verif.Store.Lemmas
import Mathlib.Tactic.Set

/-!
# C01 – C06: shared resources

Every theorem quantifies over an arbitrary schedule `s` of complete calls by arbitrarily many
workers, starting from an empty disk. `(run World.init s).2` is the log of what these calls
returned, and the specifications (`Verif/Store/Spec.lean`) look only at that log.
-/

namespace Neps.Store

variable {D : Type}

/-- **C01.** After any schedule, a put by a worker that has opened the resource succeeds exactly
if no other worker has written since that worker's last successful call; otherwise it raises
`VersionMismatchError`, and then the disk (version and data) is untouched and the worker's own
handle too. -/
theorem C01_stale_put_rejected (s : List (Nat × Op D)) (w : Nat) (x : D)
    (ho : opened w (run World.init s).2 = true) :
    let W := (run World.init s).1
    let log := (run World.init s).2
    (inDate w log = true →
      (step W w (.put x)).2 = .wrote x ∧ (step W w (.put x)).1.disk.data = some x) ∧
    (inDate w log = false →
      (step W w (.put x)).2 = .raised .mismatch ∧ (step W w (.put x)).1 = W) := by
  intro W log
  have I := inv_run (D := D) s
  have hh : (W.handle w).isSome := by rw [I.hasHandle]; exact ho
  obtain ⟨h, hw⟩ := Option.isSome_iff_exists.1 hh
  have hf := I.fresh w h hw
  constructor
  · intro hd
    have hc := hf.2 hd
    simp [step, hw, put_spec, W, hc, bump, write]
  · intro hd
    have hc : ¬ some h.ver = (run World.init s).1.disk.ver := by
      intro hc
      have := hf.1 hc
      simp only [log] at hd
      rw [hd] at this
      exact absurd this (by simp)
    simp [step, hw, put_spec, W, hc]

/-- **C02.** After any schedule, `synced()` by a worker that has opened the resource returns the
value of the latest successful write by anybody. -/
theorem C02_synced_returns_latest (s : List (Nat × Op D)) (w : Nat)
    (ho : opened w (run World.init s).2 = true) :
    ∃ x, lastWrite (run World.init s).2 = some x ∧
      (step (run World.init s).1 w .synced).2 = .got x := by
  have I := inv_run (D := D) s
  have hh : ((run World.init s).1.handle w).isSome := by rw [I.hasHandle]; exact ho
  obtain ⟨h, hw⟩ := Option.isSome_iff_exists.1 hh
  obtain ⟨v, x, -, -, hl, hs⟩ := I.sync_spec hw
  exact ⟨x, hl, by simp [step, hw, hs]⟩

/-- **C02**, for a worker that opens the resource only now: `load()` also returns the value of
the latest successful write, and raises exactly if there was no write. -/
theorem C02_load_returns_latest (s : List (Nat × Op D)) (w : Nat) :
    (step (run World.init s).1 w .load).2 =
      match lastWrite (run World.init s).2 with
      | some x => .got x
      | none => .raised .doesNotExist := by
  have I := inv_run (D := D) s
  simp only [step, I.load_spec]
  cases hv : (run (World.init : World D) s).1.disk.ver with
  | none => simp [(I.unborn hv).2]
  | some v =>
    obtain ⟨x, hx⟩ := Option.isSome_iff_exists.1 (I.born v hv).2.2
    simp [hx]

/-- The modification functions of the `acquire` calls of a schedule, in order. -/
def modifications : List (Nat × Op D) → List (D → Option D)
  | [] => []
  | (_, .acquire f) :: rest => f :: modifications rest
  | _ :: rest => modifications rest

/-- Apply a modification; `none` means the critical section ended without a put. -/
def applyMod (x : D) (f : D → Option D) : D := (f x).getD x

/-- The call only opens, reads, or modifies inside `acquire`. -/
def Op.safe : Op D → Bool
  | .put _ | .create _ => false
  | _ => true

theorem acquire_fold_aux (s : List (Nat × Op D)) :
    ∀ (W : World D) (log : List (Event D)) (x₀ : D), Inv W log → lastWrite log = some x₀ →
      (∀ p ∈ s, p.2.safe = true ∧ opened p.1 log = true) →
      (∀ e ∈ (run W s).2, e.isOk = true) ∧
      lastWrite ((run W s).2 ++ log) = some ((modifications s).foldl applyMod x₀) := by
  induction s with
  | nil => intro W log x₀ _ h _; simpa [run, modifications] using h
  | cons a s ih =>
    intro W log x₀ I hl hs
    obtain ⟨w, op⟩ := a
    obtain ⟨hsafe, hop⟩ := hs (w, op) (by simp)
    simp only at hsafe hop
    have hsome : (W.handle w).isSome := by rw [I.hasHandle]; exact hop
    obtain ⟨h, hw⟩ := Option.isSome_iff_exists.1 hsome
    obtain ⟨v, x, hv, hx, hlx, hsync⟩ := I.sync_spec hw
    rw [hl] at hlx
    obtain rfl : x₀ = x := by simpa using hlx
    have I' := I.step w op
    have hs' : ∀ p ∈ s, p.2.safe = true ∧ opened p.1 (⟨w, (step W w op).2⟩ :: log) = true := by
      intro p hp
      have := hs p (by simp [hp])
      refine ⟨this.1, ?_⟩
      have h2 := this.2
      simp only [opened, List.any_cons, Bool.or_eq_true] at h2 ⊢
      exact Or.inr h2
    -- what the first call does
    have key : (Event.isOk ⟨w, (step W w op).2⟩ = true) ∧
        lastWrite (⟨w, (step W w op).2⟩ :: log) =
          some ((modifications [(w, op)]).foldl applyMod x₀) := by
      cases op with
      | create y => simp [Op.safe] at hsafe
      | put y => simp [Op.safe] at hsafe
      | load => simp [step, I.load_spec, hv, hl, Event.isOk, lastWrite, modifications]
      | newOrLoad y =>
        simp [step, newOrLoad, new_spec, hv, I.load_spec, hl, Event.isOk, lastWrite,
          modifications, Except.map]
      | synced => simp [step, hw, hsync, Event.isOk, lastWrite, modifications, hl]
      | acquire f =>
        cases hf : f x₀ with
        | none =>
          simp [step, hw, hsync, Event.isOk, lastWrite, modifications, hl, hf, applyMod]
        | some y =>
          simp [step, hw, hsync, put_spec, hv, Event.isOk, lastWrite, modifications, hf,
            applyMod]
    have hm : modifications ((w, op) :: s) = modifications [(w, op)] ++ modifications s := by
      cases op <;> simp [modifications]
    obtain ⟨h1, h2⟩ := ih _ _ _ I' key.2 hs'
    constructor
    · intro e he
      simp only [run, List.mem_append, List.mem_singleton] at he
      rcases he with he | he
      · exact h1 e he
      · rw [he]; exact key.1
    · rw [hm, List.foldl_append]
      simpa [run] using h2

/-- **C03.** Let the resource be in any state reached by a schedule `s₀` whose last write was
`x₀`, and let workers that have opened it then only read or modify inside `acquire()`, in any
interleaving `s`. Then no call raises and the value read by the next `synced()` is `x₀` with all
the modifications applied in order: none lost, none duplicated. -/
theorem C03_acquire_loses_no_update (s₀ s : List (Nat × Op D)) (x₀ : D) (w : Nat)
    (h₀ : lastWrite (run World.init s₀).2 = some x₀)
    (hs : ∀ p ∈ s, p.2.safe = true ∧ opened p.1 (run World.init s₀).2 = true)
    (hw : opened w (run World.init s₀).2 = true) :
    (∀ e ∈ (run (run World.init s₀).1 s).2, e.isOk = true) ∧
    (step (run World.init (s₀ ++ s)).1 w .synced).2 =
      .got ((modifications s).foldl applyMod x₀) := by
  obtain ⟨h1, h2⟩ := acquire_fold_aux s _ _ x₀ (inv_run s₀) h₀ hs
  refine ⟨h1, ?_⟩
  have hw' : opened w (run World.init (s₀ ++ s)).2 = true := by
    rw [run_append]
    simp only [opened, List.any_append, Bool.or_eq_true] at hw ⊢
    exact Or.inr hw
  obtain ⟨x, hx, hg⟩ := C02_synced_returns_latest (s₀ ++ s) w hw'
  rw [run_append] at hx
  simp only at hx
  rw [h2] at hx
  rw [hg]
  simp only [Option.some.injEq] at hx
  rw [hx]

/-- Two workers increment a counter three times; the hypotheses of C03 hold and the result is the
sum. -/
example :
    let s₀ : List (Nat × Op Nat) := [(0, .newOrLoad 10), (1, .newOrLoad 99)]
    let s : List (Nat × Op Nat) :=
      [(0, .acquire (fun n => some (n + 1))), (1, .acquire (fun n => some (n + 2))), (0, .synced),
       (0, .acquire (fun n => some (n + 4)))]
    lastWrite (run World.init s₀).2 = some 10 ∧
    (∀ p ∈ s, p.2.safe = true ∧ opened p.1 (run World.init s₀).2 = true) ∧
    (modifications s).foldl applyMod 10 = 17 := by
  refine ⟨by decide, ?_, by decide⟩
  intro p hp
  simp only [List.mem_cons, List.not_mem_nil, or_false] at hp
  rcases hp with rfl | rfl | rfl | rfl <;> exact ⟨rfl, by decide⟩

/-- C01's two cases both occur: worker 1 is in date after its load, and out of date once worker 0
has put again. -/
example :
    let s : List (Nat × Op Nat) := [(0, .create 1), (1, .load)]
    let t : List (Nat × Op Nat) := s ++ [(0, .put 2)]
    opened 1 (run World.init s).2 = true ∧ inDate 1 (run World.init s).2 = true ∧
    opened 1 (run World.init t).2 = true ∧ inDate 1 (run World.init t).2 = false ∧
    (step (run World.init t).1 1 (.put 3)).2 = .raised .mismatch ∧
    (step (run World.init t).1 1 .synced).2 = .got 2 := by decide

/-! ### C06: creation never overwrites -/

/-- **C06.** `new` on an existing resource raises and leaves the disk as it was; `new_or_load` on
an existing resource returns the stored value, whatever data was passed, and leaves the disk as
it was. -/
theorem C06_creation_never_overwrites (s : List (Nat × Op D)) (w : Nat) (x y : D)
    (he : lastWrite (run World.init s).2 = some y) :
    (step (run World.init s).1 w (.create x)).2 = .raised .alreadyExists ∧
    (step (run World.init s).1 w (.create x)).1.disk = (run World.init s).1.disk ∧
    (step (run World.init s).1 w (.newOrLoad x)).2 = .got y ∧
    (step (run World.init s).1 w (.newOrLoad x)).1.disk = (run World.init s).1.disk := by
  have I := inv_run (D := D) s
  cases hv : (run (World.init : World D) s).1.disk.ver with
  | none => simp [(I.unborn hv).2] at he
  | some v =>
    simp [step, newOrLoad, new_spec, hv, I.load_spec, he, Except.map]

/-- The call opens, creates or reads; it never changes an existing resource. -/
def Op.opens : Op D → Bool
  | .put _ | .acquire _ => false
  | _ => true

/-- **C06**, racing creators. In any interleaving of any number of workers that create, load,
create-or-load and read with their own initial data, all calls that return a value return the
same one, namely the data of the first creation; and exactly the first creation writes. -/
theorem C06_one_initial_value_wins (s : List (Nat × Op D)) (hs : ∀ p ∈ s, p.2.opens = true) :
    ∀ e ∈ (run World.init s).2, ∀ x, (e.out = .wrote x ∨ e.out = .got x) →
      lastWrite (run World.init s).2 = some x := by
  suffices H : ∀ (s : List (Nat × Op D)) (W : World D) (log), Inv W log →
      (∀ p ∈ s, p.2.opens = true) →
      (∀ x, lastWrite log = some x → lastWrite ((run W s).2 ++ log) = some x) ∧
      ∀ e ∈ (run W s).2, ∀ x, (e.out = .wrote x ∨ e.out = .got x) →
        lastWrite ((run W s).2 ++ log) = some x by
    simpa using (H s World.init [] inv_init hs).2
  intro s
  induction s with
  | nil => intro W log _ _; simp [run]
  | cons a s ih =>
    intro W log I hs
    obtain ⟨w, op⟩ := a
    have hop : op.opens = true := hs (w, op) (by simp)
    obtain ⟨h1, h2⟩ := ih _ _ (I.step w op) (fun p hp => hs p (by simp [hp]))
    -- the first call preserves an existing value, and returns the resulting one
    have key : (∀ x, lastWrite log = some x →
          lastWrite (⟨w, (step W w op).2⟩ :: log) = some x) ∧
        (∀ x, ((step W w op).2 = .wrote x ∨ (step W w op).2 = .got x) →
          lastWrite (⟨w, (step W w op).2⟩ :: log) = some x) := by
      have keep : ∀ y, (step W w op).2 = .got y → lastWrite log = some y →
          (∀ x, lastWrite log = some x →
            lastWrite (⟨w, (step W w op).2⟩ :: log) = some x) ∧
          (∀ x, ((step W w op).2 = .wrote x ∨ (step W w op).2 = .got x) →
            lastWrite (⟨w, (step W w op).2⟩ :: log) = some x) := by
        intro y hy hl
        rw [hy]
        refine ⟨fun x hx => by simpa [lastWrite] using hx, ?_⟩
        intro x hx
        rcases hx with hx | hx
        · simp at hx
        · simp only [Out.got.injEq] at hx
          subst hx
          simpa [lastWrite] using hl
      have rais : ∀ e, (step W w op).2 = .raised e →
          (∀ x, lastWrite log = some x →
            lastWrite (⟨w, (step W w op).2⟩ :: log) = some x) ∧
          (∀ x, ((step W w op).2 = .wrote x ∨ (step W w op).2 = .got x) →
            lastWrite (⟨w, (step W w op).2⟩ :: log) = some x) := by
        intro e he
        rw [he]
        exact ⟨fun x hx => by simpa [lastWrite] using hx, fun x hx => by simp at hx⟩
      have wr : ∀ y, (step W w op).2 = .wrote y → W.disk.ver = none →
          (∀ x, lastWrite log = some x →
            lastWrite (⟨w, (step W w op).2⟩ :: log) = some x) ∧
          (∀ x, ((step W w op).2 = .wrote x ∨ (step W w op).2 = .got x) →
            lastWrite (⟨w, (step W w op).2⟩ :: log) = some x) := by
        intro y hy hv
        rw [hy]
        refine ⟨fun x hx => by simp [(I.unborn hv).2] at hx, ?_⟩
        intro x hx
        simpa [lastWrite] using hx
      cases op with
      | put y => simp [Op.opens] at hop
      | acquire f => simp [Op.opens] at hop
      | create y =>
        cases hv : W.disk.ver with
        | none => exact wr y (by simp [step, new_spec, hv]) hv
        | some v => exact rais _ (by simp [step, new_spec, hv]; rfl)
      | newOrLoad y =>
        cases hv : W.disk.ver with
        | none => exact wr y (by simp [step, newOrLoad, new_spec, hv]) hv
        | some v =>
          obtain ⟨z, hz⟩ := Option.isSome_iff_exists.1 (I.born v hv).2.2
          exact keep z (by simp [step, newOrLoad, new_spec, hv, I.load_spec, hz, Except.map]) hz
      | load =>
        cases hv : W.disk.ver with
        | none => exact rais _ (by simp [step, I.load_spec, hv]; rfl)
        | some v =>
          obtain ⟨z, hz⟩ := Option.isSome_iff_exists.1 (I.born v hv).2.2
          exact keep z (by simp [step, I.load_spec, hv, hz]) hz
      | synced =>
        cases hw : W.handle w with
        | none => exact rais _ (by simp [step, hw]; rfl)
        | some h =>
          obtain ⟨v, x, _, _, hl, hsy⟩ := I.sync_spec hw
          exact keep x (by simp [step, hw, hsy]) hl
    constructor
    · intro x hx
      simpa [run] using h1 x (key.1 x hx)
    · intro e he x hx
      simp only [run, List.mem_append, List.mem_singleton] at he
      rcases he with he | he
      · simpa [run] using h2 e he x hx
      · subst he
        simpa [run] using h1 x (key.2 x hx)

/-- Three workers race to create with different data; the second one in the schedule wins nothing,
all return the first value. -/
example :
    let s : List (Nat × Op Nat) := [(2, .newOrLoad 7), (0, .create 8), (0, .load), (1, .newOrLoad 9)]
    (∀ p ∈ s, p.2.opens = true) ∧
    (run World.init s).2.map (fun e => (e.who, e.out)) =
      [(1, .got 7), (0, .got 7), (0, .raised .alreadyExists), (2, .wrote 7)] := by
  refine ⟨?_, by decide⟩
  intro p hp
  simp only [List.mem_cons, List.not_mem_nil, or_false] at hp
  rcases hp with rfl | rfl | rfl | rfl <;> rfl

/-! ### C04: kills inside `put` -/

/-- What the other workers may see and do after a put of `x` was killed, when the latest complete
write was `y`: every worker's `synced()` returns the same value, `y` or `x`; and if that value is
not what the disk holds (the new one), at least nobody can overwrite the disk without a
`VersionMismatchError`. This is the full English claim. -/
def CrashSafePut (W : World D) (x y : D) (d : Disk D) : Prop :=
  let W' : World D := ⟨d, W.handle⟩
  (∃ z, (z = x ∨ z = y) ∧ d.data = some z ∧
    ∀ w, (W.handle w).isSome → (step W' w .synced).2 = .got z) ∧
  (d.data = some x → d.data ≠ some y → ∀ w u, (W.handle w).isSome →
    (step W' w (.put u)).2 ≠ .wrote u)

/-- **C04 fails.** Worker 0 creates, worker 1 opens; worker 0 is killed inside a put of `2` after
the data was written and before the version was bumped. Worker 1's `synced()` still returns the
old value `1` although the disk holds `2`, a worker that opens now gets `2`, and worker 1's put
of `3` is accepted and silently discards `2`. -/
theorem C04_crash_in_put_fails :
    let W := (run World.init [(0, Op.create 1), (1, .load)]).1
    let h : Handle Nat := ⟨1, 0⟩
    let d := putKilled 1 2 h W.disk
    W.handle 0 = some h ∧
    (step ⟨d, W.handle⟩ 1 .synced).2 = .got 1 ∧
    (step ⟨d, W.handle⟩ 2 .load).2 = .got 2 ∧
    (step ⟨d, W.handle⟩ 1 (.put 3)).2 = .wrote 3 ∧
    ¬ CrashSafePut W 2 1 d := by
  refine ⟨by decide, by decide, by decide, by decide, ?_⟩
  rintro ⟨⟨z, -, hd, h⟩, -⟩
  have := h 1 (by decide)
  have hz : z = 2 := by
    have : (putKilled 1 2 (⟨1, 0⟩ : Handle Nat)
      (run World.init [(0, Op.create 1), (1, .load)]).1.disk).data = some 2 := by decide
    rw [this] at hd
    simpa using hd.symm
  subst hz
  exact absurd this (by decide)

/-- **C04, partial.** At every other crash point of `put` (before the data is written, or after
the version is bumped) the claim holds, in every reachable state and for every worker. Missing:
the point between the two writes, where it is false (`C04_crash_in_put_fails`). -/
theorem C04_crash_in_put_partial (s : List (Nat × Op D)) (w : Nat) (h : Handle D) (x y : D)
    (k : Nat) (hk : k ≠ 1)
    (hw : (run World.init s).1.handle w = some h)
    (hy : lastWrite (run World.init s).2 = some y) :
    CrashSafePut (run World.init s).1 x y (putKilled k x h (run World.init s).1.disk) := by
  have I := inv_run (D := D) s
  set W := (run (World.init : World D) s).1 with hW
  have hdata : W.disk.data = some y := by
    cases hv : W.disk.ver with
    | none => simp [(I.unborn hv).1] at hw
    | some v => rw [(I.born v hv).2.1, hy]
  have keep : CrashSafePut W x y W.disk := by
    refine ⟨⟨y, Or.inr rfl, hdata, ?_⟩, ?_⟩
    · intro w' hw'
      obtain ⟨h', hh'⟩ := Option.isSome_iff_exists.1 hw'
      obtain ⟨v, z, -, -, hl, hs⟩ := I.sync_spec hh'
      rw [hy] at hl
      simp only [Option.some.injEq] at hl
      subst hl
      simp [step, hh', hs]
    · intro hx hne
      exact absurd hdata hne
  unfold putKilled
  split
  · next hc =>
    match k, hk with
    | 0, _ => exact keep
    | k + 2, _ =>
      refine ⟨⟨x, Or.inl rfl, by simp [bump, write], ?_⟩, ?_⟩
      · intro w' hw'
        obtain ⟨h', hh'⟩ := Option.isSome_iff_exists.1 hw'
        have := I.hver w' h' hh'
        have hne : h'.ver ≠ W.disk.next := by omega
        simp [step, hh', sync, bump, write, read, hne]
      · intro _ _ w' u hw'
        obtain ⟨h', hh'⟩ := Option.isSome_iff_exists.1 hw'
        have := I.hver w' h' hh'
        have hne : h'.ver ≠ W.disk.next := by omega
        simp [step, hh', put, bump, write, hne]
  · exact keep

example : ∃ h : Handle Nat,
    (run World.init [(0, Op.create 1), (1, .load)]).1.handle 1 = some h ∧
    lastWrite (run World.init [(0, Op.create 1), (1, .load)]).2 = some 1 :=
  ⟨⟨1, 0⟩, by decide, by decide⟩

/-! ### C05: kills inside creation -/

/-- **C05 fails.** A kill after the version was bumped and before the data was written makes the
resource unusable: creating it again, loading it and create-or-load all raise, and each leaves
the disk as it is, so they raise for ever. -/
theorem C05_crash_in_new_fails (x y : D) :
    let d := newKilled 1 x (Disk.empty : Disk D)
    new y d = (.error .alreadyExists, d) ∧ load d = .error .fileNotFound ∧
    newOrLoad y d = (.error .fileNotFound, d) := by
  simp [newKilled, Disk.empty, bump, new, load, read, newOrLoad, Except.map]

/-- **C05, partial.** At the other crash points of creation a later `new_or_load` succeeds. Missing:
the point between version and data, where it is false. -/
theorem C05_crash_in_new_partial (x y : D) (k : Nat) (hk : k ≠ 1) (n : Nat) :
    ∃ r d, newOrLoad y (newKilled k x (⟨none, none, n⟩ : Disk D)) = (.ok r, d) ∧
      (r.2.cur = x ∨ r.2.cur = y) := by
  match k, hk with
  | 0, _ => exact ⟨_, _, by simp [newKilled, newOrLoad, new, bump]; exact ⟨rfl, rfl⟩, Or.inr rfl⟩
  | k + 2, _ =>
    exact ⟨(false, ⟨x, n⟩), ⟨some n, some x, n + 1⟩,
      by simp [newKilled, newOrLoad, new, bump, write, load, read, Except.map], Or.inl rfl⟩

end Neps.Store
