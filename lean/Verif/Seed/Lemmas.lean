import Verif.Seed.Spec
import Verif.Run.Life
import Mathlib.Data.List.Induction

/-!
# Lemmas about the generators of a run
-/

namespace Neps.Seed

open Neps.Run
open Neps.Store (Disk Handle)

variable {G O E : Type}

/-- Storing and setting the generators gives back the same generators on a host of the same kind. -/
theorem setGlobal_capture (r r' : Rng G) (h : r'.cuda.isSome = r.cuda.isSome) :
    (r.capture).setGlobal r' = r := by
  obtain ⟨a, b, c, d⟩ := r
  obtain ⟨a', b', c', d'⟩ := r'
  cases d <;> cases d' <;> simp_all [Rng.capture, Snapshot.setGlobal]

theorem setGlobal_cuda (s : Snapshot G) (r : Rng G) :
    (s.setGlobal r).cuda.isSome = r.cuda.isSome := by
  unfold Snapshot.setGlobal
  cases r.cuda <;> rfl

/-- Writing the snapshot of a host of the same kind and reading gives the snapshot. -/
theorem read_write (d : SeedDir G) (r : Rng G) (h : r.cuda = none → d.cuda = none) :
    (d.write r.capture).read = some r.capture := by
  obtain ⟨a, b, c, e⟩ := r
  cases e <;> simp_all [Rng.capture, SeedDir.write, SeedDir.read]

/-- The sampling step of the transition system. -/
theorem act_sample {fs st} {W : World} {w : Nat} {c : Choice} {s : Sampled} (hs : samples W w = true)
    (hne : (act fs st W (.step w { c with ask := some s })).ids ≠ W.ids) :
    s.id ∉ W.ids ∧ (act fs st W (.step w { c with ask := some s })).ids = W.ids ++ [s.id] ∧
    ∃ loc v n, (act fs st W (.step w { c with ask := some s })).disk s.id =
      ⟨some v, some (newTrial w s loc c.now), n⟩ := by
  simp only [samples, Bool.and_eq_true, beq_iff_eq] at hs
  obtain ⟨h1, h2⟩ := hs
  simp only [act, h1, if_true, stepW, h2] at hne ⊢
  cases hp : prepareSample W s with
  | none => simp [hp] at hne
  | some loc =>
    by_cases hi : s.id ∈ W.ids
    · simp [hp, hi] at hne
    · cases hn : Store.new (newTrial w s loc c.now) (W.disk s.id) with
      | mk res d =>
        cases res with
        | error e => simp [hp, hi, hn] at hne
        | ok h =>
          obtain ⟨-, -, hd⟩ := new_ok hn
          simp only [hi, hn, if_false]
          refine ⟨not_false, by simp, loc, (W.disk s.id).next, (W.disk s.id).next + 1, ?_⟩
          simp [hd]

theorem act_none_ids {fs st} {W : World} {w : Nat} {c : Choice} (hs : samples W w = true) :
    (act fs st W (.step w { c with ask := none })).ids = W.ids := by
  simp only [samples, Bool.and_eq_true, beq_iff_eq] at hs
  simp [act, hs.1, stepW, hs.2]

/-- Steps that are not samplings create no trial. -/
theorem act_other_ids {fs st} {W : World} {w : Nat} {c : Choice} (hs : samples W w = false) :
    (act fs st W (.step w c)).ids = W.ids := by
  simp only [act]
  split
  · next ha =>
    have hp : (W.worker w).pc ≠ .sample := by
      intro h
      simp [samples, ha, h] at hs
    have := stepW_step fs (st w) W w c
    generalize stepW fs (st w) W w c = W' at this
    cases this with
    | create s loc h => exact absurd h hp
    | _ => simp
  · rfl

/-! ## Replaying -/

/-- The state of the process of `replay` after the histories. -/
def after (A : Optimizer G O E) : O → Rng G → List (E × List View × PyFloat) → Option (O × Rng G)
  | o, r, [] => some (o, r)
  | o, r, (e, ts, b) :: hs =>
    match A.ask o e ts b r with
    | none => none
    | some (_, o', r') => after A o' r' hs

theorem after_append (A : Optimizer G O E) (hs : List (E × List View × PyFloat))
    (h : E × List View × PyFloat) (o : O) (r : Rng G) {o₁ r₁ s o₂ r₂}
    (h₁ : after A o r hs = some (o₁, r₁)) (h₂ : A.ask o₁ h.1 h.2.1 h.2.2 r₁ = some (s, o₂, r₂)) :
    after A o r (hs ++ [h]) = some (o₂, r₂) ∧
      replay A o r (hs ++ [h]) = replay A o r hs ++ [s] := by
  induction hs generalizing o r with
  | nil =>
    simp only [after, Option.some.injEq, Prod.mk.injEq] at h₁
    obtain ⟨rfl, rfl⟩ := h₁
    obtain ⟨e, ts, b⟩ := h
    simp only at h₂
    simp [after, replay, h₂]
  | cons x hs ih =>
    obtain ⟨e, ts, b⟩ := x
    simp only [after] at h₁
    cases ha : A.ask o e ts b r with
    | none => simp [ha] at h₁
    | some p =>
      obtain ⟨s', o', r'⟩ := p
      simp only [ha] at h₁
      obtain ⟨i1, i2⟩ := ih o' r' h₁
      simp only [List.cons_append, after, replay, ha]
      exact ⟨i1, by simp [i2]⟩

theorem replay_length (A : Optimizer G O E) (hs : List (E × List View × PyFloat)) (o : O) (r : Rng G) :
    (replay A o r hs).length ≤ hs.length := by
  induction hs generalizing o r with
  | nil => simp [replay]
  | cons x hs ih =>
    obtain ⟨e, ts, b⟩ := x
    simp only [replay]
    split
    · simp
    · simp [ih]

/-- Asking keeps the kind of the host. -/
def KeepsHost (A : Optimizer G O E) : Prop :=
  ∀ o e ts b r s o' r', A.ask o e ts b r = some (s, o', r') → r'.cuda.isSome = r.cuda.isSome

/-- The invariant of a run without kills inside a sampling: the stored generators are those of the
replaying process. -/
structure SeedInv (A : Optimizer G O E) (V : List View → Prop) (r₀ : Rng G) (W : SWorld G O E) :
    Prop where
  hosts : SameHosts r₀ W.rng
  state : (∀ h ∈ histories W, V h.2.1) → ∃ o r, after A A.init r₀ (histories W) = some (o, r) ∧
    replay A A.init r₀ (histories W) = proposals W ∧ W.seed.read = some r.capture ∧
    r.cuda.isSome = r₀.cuda.isSome
  nocuda : r₀.cuda = none → W.seed.cuda = none

theorem SeedInv.start (A : Optimizer G O E) (V : List View → Prop) {r₀ : Rng G} {rng : Nat → Rng G}
    (h : SameHosts r₀ rng) : SeedInv A V r₀ (start A r₀ rng) where
  hosts := h
  state := fun _ => ⟨A.init, r₀, rfl, rfl, read_write _ _ (fun _ => rfl), rfl⟩
  nocuda := fun h => by simp [Seed.start, SeedDir.write, Rng.capture, h]

theorem propose_some {A : Optimizer G O E} {W : SWorld G O E} {w c e h s o r}
    (hp : propose A W w c e = some (h, s, o, r)) :
    ∃ snap, W.seed.read = some snap ∧ h.1 = e ∧ seen W.base c = some h.2.1 ∧
      h.2.2 = W.base.budget ∧
      A.ask (W.opt w) h.1 h.2.1 h.2.2 (snap.setGlobal (W.rng w)) = some (s, o, r) := by
  simp only [propose] at hp
  split at hp
  · next ts snap h1 h2 =>
    cases ha : A.ask (W.opt w) e ts W.base.budget (snap.setGlobal (W.rng w)) with
    | none => simp [ha] at hp
    | some p =>
      obtain ⟨s', o', r'⟩ := p
      simp only [ha, Option.map_some, Option.some.injEq, Prod.mk.injEq] at hp
      obtain ⟨rfl, rfl, rfl, rfl⟩ := hp
      exact ⟨snap, h2, rfl, h1, rfl, ha⟩
  · simp at hp

theorem upd_hosts {r₀ : Rng G} {rng : Nat → Rng G} (h : SameHosts r₀ rng) (w : Nat) {x : Rng G}
    (hx : x.cuda.isSome = r₀.cuda.isSome) : SameHosts r₀ (upd rng w x) := by
  intro w'
  simp only [upd]
  split
  · exact hx
  · exact h w'

/-- A completed sampling. -/
theorem SeedInv.sample {A : Optimizer G O E} {V : List View → Prop} {r₀ : Rng G} {W : SWorld G O E}
    (hA : Independent A V) (hK : KeepsHost A) (I : SeedInv A V r₀ W) (fs st w c e) :
    SeedInv A V r₀ (sample A fs st W w c e false) := by
  unfold Seed.sample
  split
  · exact ⟨I.hosts, I.state, I.nocuda⟩
  · next h s o r hp =>
    obtain ⟨snap, h1, h2, h3, h4, h5⟩ := propose_some hp
    have hr : r.cuda.isSome = r₀.cuda.isSome := by
      rw [hK _ _ _ _ _ _ _ _ h5, setGlobal_cuda]
      exact I.hosts w
    simp only [Bool.false_eq_true, if_false]
    split
    · exact ⟨I.hosts, I.state, I.nocuda⟩
    · refine ⟨upd_hosts I.hosts w hr, ?_, ?_⟩
      · intro hV
        simp only [histories, List.map_append, List.map_cons, List.map_nil] at hV
        obtain ⟨o₁, r₁, i1, i2, i3, i4⟩ := I.state (fun x hx => hV x (by
          simp only [histories] at hx
          simp [List.mem_append, hx]))
        rw [h1] at i3
        simp only [Option.some.injEq] at i3
        subst i3
        have hVh : V h.2.1 := hV h (by simp)
        rw [setGlobal_capture _ _ (by rw [I.hosts w, i4])] at h5
        have hi := hA (W.opt w) o₁ h.1 h.1 h.2.1 h.2.1 h.2.2 r₁ hVh (List.Perm.refl _)
        rw [h5] at hi
        cases ha : A.ask o₁ h.1 h.2.1 h.2.2 r₁ with
        | none => simp [ha] at hi
        | some p =>
          obtain ⟨s', o', r'⟩ := p
          simp only [ha, Option.map_some, Option.some.injEq, Prod.mk.injEq] at hi
          obtain ⟨rfl, rfl⟩ := hi
          obtain ⟨j1, j2⟩ := after_append A (histories W) h A.init r₀ i1 ha
          refine ⟨o', r, ?_, ?_, ?_, hr⟩
          · simpa [histories] using j1
          · simp only [histories, proposals, List.map_append, List.map_cons, List.map_nil] at *
            rw [j2, i2]
          · refine read_write _ _ (fun hn => I.nocuda ?_)
            rw [hn] at hr
            cases hc : r₀.cuda with
            | none => rfl
            | some x => simp [hc] at hr
      · intro hn
        have : r.cuda = none := by
          rw [hn] at hr
          cases hc : r.cuda with
          | none => rfl
          | some x => simp [hc] at hr
        simp [SeedDir.write, Rng.capture, this, I.nocuda hn]

theorem SeedInv.act {A : Optimizer G O E} {V : List View → Prop} {r₀ : Rng G} {W : SWorld G O E}
    (hA : Independent A V) (hK : KeepsHost A) (I : SeedInv A V r₀ W) (fs st) (a : SAct G E)
    (ha : a.clean = true) : SeedInv A V r₀ (sact A fs st W a) := by
  cases a with
  | killSampling w c e => simp [SAct.clean] at ha
  | act a e noise =>
    cases a with
    | step w c =>
      simp only [sact]
      split
      · exact I.sample hA hK fs st w c e
      · exact ⟨upd_hosts I.hosts w (by rw [setGlobal_cuda]; exact I.hosts w), I.state, I.nocuda⟩
    | kill w => exact ⟨I.hosts, I.state, I.nocuda⟩
    | killCreating w c torn => exact ⟨I.hosts, I.state, I.nocuda⟩

theorem SeedInv.run {A : Optimizer G O E} {V : List View → Prop} {r₀ : Rng G} {W : SWorld G O E}
    (hA : Independent A V) (hK : KeepsHost A) (I : SeedInv A V r₀ W) (fs st) (as : List (SAct G E))
    (has : ∀ a ∈ as, a.clean = true) : SeedInv A V r₀ (srun A fs st W as) := by
  induction as generalizing W with
  | nil => exact I
  | cons a as ih =>
    exact ih (I.act hA hK fs st a (has a (by simp))) (fun b hb => has b (by simp [hb]))

/-- Replays of equal histories are equal. -/
theorem replay_congr {A : Optimizer G O E} {V : List View → Prop} (hA : Independent A V)
    {hs hs' : List (E × List View × PyFloat)} (h : SameHistories hs hs')
    (hV : ∀ x ∈ hs, V x.2.1) (o o' : O) (r : Rng G) : replay A o r hs = replay A o' r hs' := by
  induction h generalizing o o' r with
  | nil => rfl
  | @cons x y hs hs' hxy _ ih =>
    obtain ⟨e, ts, b⟩ := x
    obtain ⟨e', ts', b'⟩ := y
    obtain ⟨h1, h2⟩ := hxy
    simp only at h1 h2
    subst h2
    have hi := hA o o' e e' ts ts' b r (hV (e, ts, b) (by simp)) h1.symm
    have ih := ih (fun x hx => hV x (by simp [hx]))
    simp only [replay]
    cases h3 : A.ask o e ts b r with
    | none =>
      cases h4 : A.ask o' e' ts' b r with
      | none => rfl
      | some p => simp [h3, h4] at hi
    | some p =>
      cases h4 : A.ask o' e' ts' b r with
      | none => simp [h3, h4] at hi
      | some p' =>
        obtain ⟨s, o₁, r₁⟩ := p
        obtain ⟨s', o₂, r₂⟩ := p'
        simp only [h3, h4, Option.map_some, Option.some.injEq, Prod.mk.injEq] at hi
        obtain ⟨rfl, rfl⟩ := hi
        simp [ih o₁ o₂ r₁]

/-! ## What was proposed is stored -/

/-- The base of a run with generators is a run of the worker transition system. -/
theorem sact_base (A : Optimizer G O E) (fs st) (W : SWorld G O E) (a : SAct G E) :
    ∃ bs : List Act, (sact A fs st W a).base = run fs st W.base bs := by
  have hs : ∀ w c e d, ∃ bs : List Act, (Seed.sample A fs st W w c e d).base = run fs st W.base bs := by
    intro w c e d
    unfold Seed.sample
    split
    · exact ⟨[.step w { c with ask := none }], rfl⟩
    · next h s o r _ =>
      simp only
      split
      · exact ⟨[.step w { c with ask := some s }], rfl⟩
      · cases d with
        | false => exact ⟨[.step w { c with ask := some s }], rfl⟩
        | true => exact ⟨[.step w { c with ask := some s }, .kill w], rfl⟩
  cases a with
  | killSampling w c e =>
    simp only [sact]
    split
    · exact hs w c e true
    · exact ⟨[.kill w], rfl⟩
  | act a e noise =>
    cases a with
    | step w c =>
      simp only [sact]
      split
      · exact hs w c e false
      · exact ⟨[.step w c], rfl⟩
    | kill w => exact ⟨[.kill w], rfl⟩
    | killCreating w c torn => exact ⟨[.killCreating w { c with ask := (propose A W w c e).map (·.2.1) } torn], rfl⟩

theorem srun_base (A : Optimizer G O E) (fs st) (W : SWorld G O E) (as : List (SAct G E)) :
    ∃ bs : List Act, (srun A fs st W as).base = run fs st W.base bs := by
  induction as generalizing W with
  | nil => exact ⟨[], rfl⟩
  | cons a as ih =>
    obtain ⟨bs, h1⟩ := sact_base A fs st W a
    obtain ⟨bs', h2⟩ := ih (sact A fs st W a)
    refine ⟨bs ++ bs', ?_⟩
    rw [run_append, ← h1]
    exact h2

end Neps.Seed
