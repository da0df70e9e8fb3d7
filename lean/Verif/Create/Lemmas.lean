import Verif.Create.Spec
import Mathlib.Tactic.Set

/-!
# Lemmas about creating or loading a run
-/

namespace Neps.Create

variable {V : Type} {F : Format V}

@[simp] theorem set_same {α β : Type} [DecidableEq α] (f : α → β) (a : α) (b : β) :
    set f a b a = b := by simp [set]

theorem set_ne {α β : Type} [DecidableEq α] (f : α → β) {a x : α} (b : β) (h : x ≠ a) :
    set f a b x = f x := by simp [set, h]

/-! ### A call that nobody disturbs -/

/-- `n` operations of `p`. -/
def steps (F : Format V) (p n : Nat) (W : World V) : World V :=
  run F W (List.replicate n (.step p))

theorem run_append (W : World V) (s t : List (Act V)) :
    run F W (s ++ t) = run F (run F W s) t := by
  induction s generalizing W with
  | nil => rfl
  | cons a s ih => simp [run, ih]

theorem steps_add (p m n : Nat) (W : World V) :
    steps F p (m + n) W = steps F p n (steps F p m W) := by
  unfold steps
  rw [List.replicate_add, run_append]

theorem steps_succ (p n : Nat) (W : World V) :
    steps F p (n + 1) W = steps F p n (step F W p) := by
  simp [steps, List.replicate_succ, run, act]

theorem steps_zero (p : Nat) (W : World V) : steps F p 0 W = W := rfl

theorem steps_stopped {p : Nat} {W : World V}
    (h : (W.proc p).pc = .done ∨ ∃ e, (W.proc p).pc = .failed e) (n : Nat) :
    steps F p n W = W := by
  induction n with
  | zero => rfl
  | succ n ih =>
    have : step F W p = W := by
      rcases h with h | ⟨e, h⟩ <;> simp [step, h]
    rw [steps_succ, this, ih]

/-- What creating or loading resource `r` does when nobody disturbs. -/
structure Obtained (p : Nat) (r : Res) (W W' : World V) (got : V) (cell : Cell V) : Prop where
  pc : (W'.proc p).pc = PC.after r
  given : (W'.proc p).given = (W.proc p).given
  gotHere : (W'.proc p).got r = some got
  gotElse : ∀ r', r' ≠ r → (W'.proc p).got r' = (W.proc p).got r'
  cellHere : W'.cell r = cell
  cellElse : ∀ r', r' ≠ r → W'.cell r' = W.cell r'
  quiet : W'.Quiet
  root : W'.root = W.root

theorem obtain_has {p : Nat} {r : Res} {W : World V} {v : V}
    (hpc : (W.proc p).pc = .create r) (hq : W.Quiet) (hh : W.Has r v) :
    Obtained p r W (steps F p 2 W) v ⟨true, .whole v⟩ := by
  unfold World.Has at hh
  have h1 : step F W p = { W with proc := set W.proc p { W.proc p with pc := .load r } } := by
    simp [step, hpc, hq r, hh]
  have h2 : steps F p 2 W = { W with
      proc := set W.proc p
        { W.proc p with pc := PC.after r, got := set (W.proc p).got r (some v) } } := by
    rw [steps_succ, steps_succ, steps_zero, h1]
    simp only [step, set_same, hq r, hh, Option.isNone_none, if_true]
    congr 1
    funext q
    by_cases h : q = p <;> simp [set, h]
  rw [h2]
  constructor <;> simp_all [set, World.Quiet]

theorem obtain_lacks {p : Nat} {r : Res} {W : World V} {v : V}
    (hpc : (W.proc p).pc = .create r) (hq : W.Quiet) (hh : W.Lacks r)
    (hw : F.roundtrip r ((W.proc p).given r) = some v) :
    Obtained p r W (steps F p 3 W) ((W.proc p).given r) ⟨true, .whole v⟩ := by
  unfold World.Lacks at hh
  have h1 : step F W p = { W with
      cell := set W.cell r ⟨true, .missing⟩
      lock := set W.lock r (some p)
      proc := set W.proc p { W.proc p with pc := .openFile r } } := by
    simp [step, hpc, hq r, hh, Cell.empty]
  have h2 : steps F p 2 W = { W with
      cell := set W.cell r ⟨true, .torn⟩
      lock := set W.lock r (some p)
      proc := set W.proc p { W.proc p with pc := .fill r } } := by
    rw [steps_succ, steps_succ, steps_zero, h1]
    simp only [step, set_same]
    congr 1 <;> funext q
    · by_cases h : q = r <;> simp [set, h]
    · by_cases h : q = p <;> simp [set, h]
  have h3 : steps F p 3 W = { W with
      cell := set W.cell r ⟨true, .whole v⟩
      lock := set (set W.lock r (some p)) r none
      proc := set W.proc p { W.proc p with
        pc := PC.after r, got := set (W.proc p).got r (some ((W.proc p).given r)) } } := by
    rw [show (3 : Nat) = 2 + 1 from rfl, steps_add, h2, steps_succ, steps_zero]
    simp only [step, set_same, hw]
    congr 1 <;> funext q
    · by_cases h : q = r <;> simp [set, h]
    · by_cases h : q = p <;> simp [set, h]
  rw [h3]
  constructor <;> simp_all [set, World.Quiet]


/-- What is on disk after resource `r` was obtained with the value `x`. -/
def Result (F : Format V) (W W' : World V) (r : Res) (g got : V) : Prop :=
  (∀ w, W.Has r w → got = w ∧ W'.Has r w) ∧
    (W.Lacks r → got = g ∧ ∃ w, F.roundtrip r g = some w ∧ W'.Has r w)

theorem not_has_lacks {W : World V} {r : Res} {v : V} (h : W.Has r v) : ¬ W.Lacks r := by
  intro h'
  unfold World.Has at h
  unfold World.Lacks at h'
  rw [h] at h'
  cases h'

theorem has_unique {W : World V} {r : Res} {v w : V} (h : W.Has r v) (h' : W.Has r w) : v = w := by
  unfold World.Has at h h'
  rw [h] at h'
  simpa using h'

theorem obtain_any {p : Nat} {r : Res} {W : World V} (hpc : (W.proc p).pc = .create r)
    (hq : W.Quiet)
    (h : (∃ v, W.Has r v) ∨ (W.Lacks r ∧ ∃ v, F.roundtrip r ((W.proc p).given r) = some v)) :
    ∃ n ≤ 3, ∃ got v, Obtained p r W (steps F p n W) got ⟨true, .whole v⟩ ∧
      Result F W (steps F p n W) r ((W.proc p).given r) got := by
  rcases h with ⟨v, h⟩ | ⟨h, v, hv⟩
  · refine ⟨2, by omega, v, v, obtain_has hpc hq h, fun w hw => ?_, fun hl => ?_⟩
    · obtain rfl := has_unique h hw
      exact ⟨rfl, (obtain_has (F := F) hpc hq h).cellHere⟩
    · exact absurd hl (not_has_lacks h)
  · exact ⟨3, by omega, _, v, obtain_lacks hpc hq h hv, fun w hw => absurd h (not_has_lacks hw),
      fun _ => ⟨rfl, v, hv, (obtain_lacks hpc hq h hv).cellHere⟩⟩

theorem Result.later {W W' W'' : World V} {r : Res} {g got : V} (h : Result F W W' r g got)
    (hc : W''.cell r = W'.cell r) : Result F W W'' r g got := by
  unfold Result World.Has World.Lacks at *
  rw [hc]
  exact h

theorem Result.earlier {W W' W'' : World V} {r : Res} {g got : V} (h : Result F W' W'' r g got)
    (hc : W'.cell r = W.cell r) : Result F W W'' r g got := by
  unfold Result World.Has World.Lacks at *
  rw [← hc]
  exact h

/-- The rest of a call that has reached the creation of the first resource. -/
theorem finish {p : Nat} {W : World V} (hpc : (W.proc p).pc = .create .info) (hq : W.Quiet)
    (h : ∀ r, (∃ v, W.Has r v) ∨
      (W.Lacks r ∧ ∃ v, F.roundtrip r ((W.proc p).given r) = some v)) :
    ∃ n ≤ 12, (steps F p n W).Returned p ∧ (steps F p n W).Quiet ∧
      (steps F p n W).root = W.root ∧
      ∀ r, ∃ got, ((steps F p n W).proc p).got r = some got ∧
        Result F W (steps F p n W) r ((W.proc p).given r) got := by
  obtain ⟨n1, k1, g1, v1, o1, r1⟩ := obtain_any hpc hq (h .info)
  set W1 := steps F p n1 W with hW1
  have h1 : ∀ r, r ≠ .info → (∃ v, W1.Has r v) ∨
      (W1.Lacks r ∧ ∃ v, F.roundtrip r ((W1.proc p).given r) = some v) := by
    intro r hr
    unfold World.Has World.Lacks
    rw [o1.cellElse r hr, o1.given]
    exact h r
  obtain ⟨n2, k2, g2, v2, o2, r2⟩ := obtain_any (r := .seed) o1.pc o1.quiet (h1 _ (by decide))
  set W2 := steps F p n2 W1 with hW2
  have h2 : ∀ r, r ≠ .info → r ≠ .seed → (∃ v, W2.Has r v) ∨
      (W2.Lacks r ∧ ∃ v, F.roundtrip r ((W2.proc p).given r) = some v) := by
    intro r hr hs
    unfold World.Has World.Lacks
    rw [o2.cellElse r hs, o2.given]
    exact h1 r hr
  obtain ⟨n3, k3, g3, v3, o3, r3⟩ :=
    obtain_any (r := .errors) o2.pc o2.quiet (h2 _ (by decide) (by decide))
  set W3 := steps F p n3 W2 with hW3
  have h3 : (∃ v, W3.Has .state v) ∨
      (W3.Lacks .state ∧ ∃ v, F.roundtrip .state ((W3.proc p).given .state) = some v) := by
    unfold World.Has World.Lacks
    rw [o3.cellElse _ (by decide), o3.given]
    exact h2 _ (by decide) (by decide)
  obtain ⟨n4, k4, g4, v4, o4, r4⟩ := obtain_any (r := .state) o3.pc o3.quiet h3
  set W4 := steps F p n4 W3 with hW4
  refine ⟨n1 + n2 + n3 + n4, by omega, ?_⟩
  rw [show steps F p (n1 + n2 + n3 + n4) W = W4 by
    rw [steps_add, steps_add, steps_add, ← hW1, ← hW2, ← hW3, ← hW4]]
  refine ⟨o4.pc, o4.quiet, by rw [o4.root, o3.root, o2.root, o1.root], fun r => ?_⟩
  cases r with
  | info =>
    refine ⟨g1, ?_, r1.later ?_⟩
    · rw [o4.gotElse _ (by decide), o3.gotElse _ (by decide), o2.gotElse _ (by decide), o1.gotHere]
    · rw [o4.cellElse _ (by decide), o3.cellElse _ (by decide), o2.cellElse _ (by decide)]
  | seed =>
    refine ⟨g2, ?_, ?_⟩
    · rw [o4.gotElse _ (by decide), o3.gotElse _ (by decide), o2.gotHere]
    · rw [o1.given] at r2
      refine (r2.later ?_).earlier (o1.cellElse _ (by decide))
      rw [o4.cellElse _ (by decide), o3.cellElse _ (by decide)]
  | errors =>
    refine ⟨g3, ?_, ?_⟩
    · rw [o4.gotElse _ (by decide), o3.gotHere]
    · rw [o2.given, o1.given] at r3
      refine (r3.later ?_).earlier ?_
      · rw [o4.cellElse _ (by decide)]
      · rw [o2.cellElse _ (by decide), o1.cellElse _ (by decide)]
  | state =>
    refine ⟨g4, o4.gotHere, ?_⟩
    rw [o3.given, o2.given, o1.given] at r4
    refine r4.earlier ?_
    rw [o3.cellElse _ (by decide), o2.cellElse _ (by decide), o1.cellElse _ (by decide)]

/-- The beginning of a call. -/
theorem call_start {p : Nat} {W : World V} (hp : W.Free p) (g : Res → V) :
    call F W p g = steps F p callSteps { W with proc := set W.proc p ⟨g, .start, fun _ => none⟩ } := by
  rcases hp with h | h | ⟨e, h⟩ <;> simp [call, run, act, h, steps]

/-- The first two operations of a call. -/
theorem call_two {p : Nat} {W : World V} (hp : W.Free p) (g : Res → V) :
    call F W p g = steps F p 13 { W with
      root := true
      proc := set W.proc p
        ⟨g, if W.root then .check else .create .info, fun _ => none⟩ } := by
  rw [call_start hp, show callSteps = 13 + 1 + 1 from rfl, steps_succ, steps_succ]
  congr 1
  simp only [step, set_same]
  congr 1
  funext q
  by_cases h : q = p
  · cases W.root <;> simp [set, h]
  · simp [set, h]

/-- Three operations of a call if the root directory exists. -/
theorem call_existing {p : Nat} {W : World V} (hp : W.Free p) (hr : W.root = true) (g : Res → V) :
    call F W p g = steps F p 12 { W with
      root := true
      proc := set W.proc p
        ⟨g, match (W.cell .info).data with
          | .missing => .failed .fileNotFound
          | .torn => .failed .unreadable
          | .whole v => if F.same v (g .info) then .create .info else .failed .mismatch,
        fun _ => none⟩ } := by
  rw [call_two hp, hr, show 13 = 12 + 1 from rfl, steps_succ]
  congr 1
  cases hd : (W.cell .info).data <;> simp only [step, set_same, if_true, hd] <;> congr 1 <;>
    (funext q; by_cases h : q = p <;> simp [set, h])

end Neps.Create
