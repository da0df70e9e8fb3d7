import Verif.Create.Lemmas

/-!
# What holds in every schedule of calls
-/

namespace Neps.Create

variable {V : Type} {F : Format V}

/-- Position of a resource in the order of creation. -/
def Res.idx : Res → Nat
  | .info => 0
  | .seed => 1
  | .errors => 2
  | .state => 3

/-- A process at `c` already has resource `r`. -/
def PC.passed (c : PC) (r : Res) : Prop :=
  match c with
  | .done => True
  | .create r' | .openFile r' | .fill r' | .load r' => r.idx < r'.idx
  | _ => False

/-- A process at `c` has made the root directory. -/
def PC.entered : PC → Bool
  | .check | .create _ | .openFile _ | .fill _ | .load _ | .done => true
  | _ => false

theorem passed_after {r r' : Res} (h : (PC.after r).passed r') : r' = r ∨ (PC.create r).passed r' := by
  cases r <;> cases r' <;> simp_all [PC.after, Res.next, PC.passed, Res.idx]

theorem entered_after (r : Res) : (PC.after r).entered = true := by cases r <;> rfl

theorem after_ne (r r' : Res) : PC.after r ≠ .openFile r' ∧ PC.after r ≠ .fill r' := by
  cases r <;> simp [PC.after, Res.next]

/-- What holds in every reachable world. -/
structure Inv (F : Format V) (W : World V) : Prop where
  lockIn : ∀ r p, W.lock r = some p → (W.proc p).pc = .openFile r ∨ (W.proc p).pc = .fill r
  inLock : ∀ r p, (W.proc p).pc = .openFile r ∨ (W.proc p).pc = .fill r → W.lock r = some p
  unborn : ∀ r, (W.cell r).ver = false → (W.cell r).data = .missing
  opening : ∀ p r, (W.proc p).pc = .openFile r → W.cell r = ⟨true, .missing⟩
  filling : ∀ p r, (W.proc p).pc = .fill r → W.cell r = ⟨true, .torn⟩
  born : W.root = false → ∀ r, W.cell r = .empty
  entered : ∀ p, (W.proc p).pc.entered = true → W.root = true
  passed : ∀ p r, (W.proc p).pc.passed r → ∃ x w, (W.proc p).got r = some x ∧
    W.cell r = ⟨true, .whole w⟩ ∧ (r = .info → x = w ∨ F.roundtrip .info x = some w)

theorem Inv.init (g : Res → V) : Inv F (init g) := by
  constructor <;> simp [Create.init, Cell.empty, PC.entered, PC.passed]

/-- Only the process changes: it goes to a place outside the locks. -/
theorem Inv.goto {W : World V} (I : Inv F W) {p : Nat} {c : PC} {root : Bool} {P : Proc V}
    (hroot : W.root = true → root = true)
    (hnl : ∀ r, (W.proc p).pc ≠ .openFile r ∧ (W.proc p).pc ≠ .fill r)
    (hc : ∀ r, c ≠ .openFile r ∧ c ≠ .fill r)
    (hP : P.pc = c)
    (he : c.entered = true → root = true)
    (hpass : ∀ r, c.passed r → ∃ x w, P.got r = some x ∧
      W.cell r = ⟨true, .whole w⟩ ∧ (r = .info → x = w ∨ F.roundtrip .info x = some w)) :
    Inv F { W with root := root, proc := set W.proc p P } := by
  constructor
  · intro r q h
    by_cases hq : q = p
    · subst hq
      rcases I.lockIn r q h with h' | h'
      · exact absurd h' (hnl r).1
      · exact absurd h' (hnl r).2
    · simpa [set, hq] using I.lockIn r q h
  · intro r q h
    by_cases hq : q = p
    · subst hq
      simp only [set_same, hP] at h
      rcases h with h | h
      · exact absurd h (hc r).1
      · exact absurd h (hc r).2
    · simp only [set_ne _ _ hq] at h
      exact I.inLock r q h
  · exact I.unborn
  · intro q r h
    by_cases hq : q = p
    · subst hq
      simp only [set_same, hP] at h
      exact absurd h (hc r).1
    · simp only [set_ne _ _ hq] at h
      exact I.opening q r h
  · intro q r h
    by_cases hq : q = p
    · subst hq
      simp only [set_same, hP] at h
      exact absurd h (hc r).2
    · simp only [set_ne _ _ hq] at h
      exact I.filling q r h
  · intro h r
    refine I.born ?_ r
    cases hr : W.root with
    | false => rfl
    | true => rw [hroot hr] at h; cases h
  · intro q h
    by_cases hq : q = p
    · subst hq
      simp only [set_same, hP] at h
      exact he h
    · simp only [set_ne _ _ hq] at h
      exact hroot (I.entered q h)
  · intro q r h
    by_cases hq : q = p
    · subst hq
      simp only [set_same, hP] at h
      simpa using hpass r h
    · simp only [set_ne _ _ hq] at h ⊢
      exact I.passed q r h

theorem Inv.step {W : World V} (I : Inv F W) (p : Nat) : Inv F (step F W p) := by
  simp only [Create.step]
  split
  · exact I
  · exact I
  · exact I
  · next h =>
    refine I.goto (root := W.root) id ?_ ?_ rfl ?_ ?_ <;> simp [h, PC.entered, PC.passed]
  · next isNew h =>
    refine I.goto (root := true) (fun _ => rfl) ?_ ?_ rfl ?_ ?_
    · simp [h]
    · intro r; cases isNew <;> simp
    · simp
    · intro r; cases isNew <;> cases r <;> simp [PC.passed, Res.idx]
  · next h =>
    split
    · refine I.goto (root := W.root) id ?_ ?_ rfl ?_ ?_ <;> simp [h, PC.entered, PC.passed]
    · refine I.goto (root := W.root) id ?_ ?_ rfl ?_ ?_ <;> simp [h, PC.entered, PC.passed]
    · next v hv =>
      have he := I.entered p (by simp [h, PC.entered])
      cases F.same v ((W.proc p).given .info) with
      | false => refine I.goto (root := W.root) id ?_ ?_ rfl ?_ ?_ <;> simp [h, PC.entered, PC.passed]
      | true =>
        refine I.goto (root := W.root) id ?_ ?_ rfl ?_ ?_
        · simp [h]
        · simp
        · simp [he]
        · intro r; cases r <;> simp [PC.passed, Res.idx]
  · next r h =>
    have he := I.entered p (by simp [h, PC.entered])
    split
    · next hl =>
      have hl : W.lock r = none := by simpa using hl
      split
      · next hv =>
        refine I.goto (root := W.root) id ?_ ?_ rfl ?_ ?_
        · simp [h]
        · simp
        · simp [he]
        · intro r' hr'
          exact I.passed p r' (by rw [h]; exact hr')
      · next hv =>
        have hv : (W.cell r).ver = false := by simpa using hv
        have hd := I.unborn r hv
        have hnp : ∀ q, ¬ (W.proc q).pc.passed r := by
          intro q hq
          obtain ⟨x, w, -, hc, -⟩ := I.passed q r hq
          rw [hc] at hv
          cases hv
        constructor
        · intro r' q hq
          by_cases hr : r' = r
          · subst hr
            simp only [set_same, Option.some.injEq] at hq
            subst hq
            simp
          · simp only [set_ne _ _ hr] at hq
            have hqp : q ≠ p := by
              rintro rfl
              rcases I.lockIn r' q hq with h' | h' <;> rw [h] at h' <;> cases h'
            simp only [set_ne _ _ hqp]
            exact I.lockIn r' q hq
        · intro r' q hq
          by_cases hqp : q = p
          · subst hqp
            simp only [set_same, PC.openFile.injEq] at hq
            rcases hq with hq | hq
            · subst hq; simp
            · cases hq
          · simp only [set_ne _ _ hqp] at hq
            have := I.inLock r' q hq
            have hr : r' ≠ r := by rintro rfl; rw [hl] at this; cases this
            simpa [set_ne _ _ hr] using this
        · intro r' hr'
          by_cases hr : r' = r
          · subst hr; simp at hr'
          · simp only [set_ne _ _ hr] at hr' ⊢
            exact I.unborn r' hr'
        · intro q r' hq
          by_cases hqp : q = p
          · subst hqp
            simp only [set_same, PC.openFile.injEq] at hq
            subst hq
            simp [hd]
          · simp only [set_ne _ _ hqp] at hq
            have := I.inLock r' q (Or.inl hq)
            have hr : r' ≠ r := by rintro rfl; rw [hl] at this; cases this
            simp only [set_ne _ _ hr]
            exact I.opening q r' hq
        · intro q r' hq
          by_cases hqp : q = p
          · subst hqp
            simp at hq
          · simp only [set_ne _ _ hqp] at hq
            have := I.inLock r' q (Or.inr hq)
            have hr : r' ≠ r := by rintro rfl; rw [hl] at this; cases this
            simp only [set_ne _ _ hr]
            exact I.filling q r' hq
        · intro hr; simp [he] at hr
        · intro _ _; exact he
        · intro q r' hq
          have hr : r' ≠ r ∧ (W.proc q).pc.passed r' := by
            by_cases hqp : q = p
            · subst hqp
              simp only [set_same] at hq
              refine ⟨?_, by rw [h]; exact hq⟩
              rintro rfl
              simp [PC.passed] at hq
            · simp only [set_ne _ _ hqp] at hq
              exact ⟨by rintro rfl; exact hnp q hq, hq⟩
          simp only [set_ne _ _ hr.1]
          by_cases hqp : q = p
          · subst hqp; simpa using I.passed q r' hr.2
          · simpa [set_ne _ _ hqp] using I.passed q r' hr.2
    · exact I
  · next r h =>
    have he := I.entered p (by simp [h, PC.entered])
    have hc := I.opening p r h
    have hl := I.inLock r p (Or.inl h)
    constructor
    · intro r' q hq
      by_cases hqp : q = p
      · subst hqp
        rcases I.lockIn r' q hq with h' | h' <;> rw [h] at h' <;> cases h'
        simp
      · simp only [set_ne _ _ hqp]
        exact I.lockIn r' q hq
    · intro r' q hq
      by_cases hqp : q = p
      · subst hqp
        simp only [set_same] at hq
        rcases hq with hq | hq <;> cases hq
        exact hl
      · simp only [set_ne _ _ hqp] at hq
        exact I.inLock r' q hq
    · intro r' hr'
      by_cases hr : r' = r
      · subst hr; simp [hc] at hr'
      · simp only [set_ne _ _ hr] at hr' ⊢
        exact I.unborn r' hr'
    · intro q r' hq
      by_cases hqp : q = p
      · subst hqp; simp at hq
      · simp only [set_ne _ _ hqp] at hq
        have hr : r' ≠ r := by
          rintro rfl
          have := I.inLock r' q (Or.inl hq)
          rw [hl] at this
          simp only [Option.some.injEq] at this
          exact hqp this.symm
        simp only [set_ne _ _ hr]
        exact I.opening q r' hq
    · intro q r' hq
      by_cases hqp : q = p
      · subst hqp
        simp only [set_same, PC.fill.injEq] at hq
        subst hq
        simp [hc]
      · simp only [set_ne _ _ hqp] at hq
        have hr : r' ≠ r := by
          rintro rfl
          have := I.inLock r' q (Or.inr hq)
          rw [hl] at this
          simp only [Option.some.injEq] at this
          exact hqp this.symm
        simp only [set_ne _ _ hr]
        exact I.filling q r' hq
    · intro hr; simp [he] at hr
    · intro _ _; exact he
    · intro q r' hq
      have hr : r' ≠ r ∧ (W.proc q).pc.passed r' := by
        by_cases hqp : q = p
        · subst hqp
          simp only [set_same] at hq
          refine ⟨?_, by rw [h]; exact hq⟩
          rintro rfl
          simp [PC.passed] at hq
        · simp only [set_ne _ _ hqp] at hq
          refine ⟨?_, hq⟩
          rintro rfl
          obtain ⟨x, w, -, hc', -⟩ := I.passed q r' hq
          rw [hc] at hc'
          cases hc'
      simp only [set_ne _ _ hr.1]
      by_cases hqp : q = p
      · subst hqp; simpa using I.passed q r' hr.2
      · simpa [set_ne _ _ hqp] using I.passed q r' hr.2
  · next r h =>
    have he := I.entered p (by simp [h, PC.entered])
    have hc := I.filling p r h
    have hl := I.inLock r p (Or.inr h)
    have hother : ∀ q r', q ≠ p → (W.proc q).pc = .openFile r' ∨ (W.proc q).pc = .fill r' →
        r' ≠ r := by
      rintro q r' hqp hq rfl
      have := I.inLock r' q hq
      rw [hl] at this
      simp only [Option.some.injEq] at this
      exact hqp this.symm
    have hnp : ∀ q, ¬ (W.proc q).pc.passed r := by
      intro q hq
      obtain ⟨x, w, -, hc', -⟩ := I.passed q r hq
      rw [hc] at hc'
      cases hc'
    split
    · next hw =>
      constructor
      · intro r' q hq
        by_cases hr : r' = r
        · subst hr; simp at hq
        · simp only [set_ne _ _ hr] at hq
          have hqp : q ≠ p := by
            rintro rfl
            rcases I.lockIn r' q hq with h' | h' <;> rw [h] at h' <;> cases h'
            exact hr rfl
          simp only [set_ne _ _ hqp]
          exact I.lockIn r' q hq
      · intro r' q hq
        by_cases hqp : q = p
        · subst hqp; simp at hq
        · simp only [set_ne _ _ hqp] at hq
          simp only [set_ne _ _ (hother q r' hqp hq)]
          exact I.inLock r' q hq
      · exact I.unborn
      · intro q r' hq
        by_cases hqp : q = p
        · subst hqp; simp at hq
        · simp only [set_ne _ _ hqp] at hq
          exact I.opening q r' hq
      · intro q r' hq
        by_cases hqp : q = p
        · subst hqp; simp at hq
        · simp only [set_ne _ _ hqp] at hq
          exact I.filling q r' hq
      · exact I.born
      · intro _ _; exact he
      · intro q r' hq
        by_cases hqp : q = p
        · subst hqp; simp [PC.passed] at hq
        · simp only [set_ne _ _ hqp] at hq ⊢
          exact I.passed q r' hq
    · next v hw =>
      constructor
      · intro r' q hq
        by_cases hr : r' = r
        · subst hr; simp at hq
        · simp only [set_ne _ _ hr] at hq
          have hqp : q ≠ p := by
            rintro rfl
            rcases I.lockIn r' q hq with h' | h' <;> rw [h] at h' <;> cases h'
            exact hr rfl
          simp only [set_ne _ _ hqp]
          exact I.lockIn r' q hq
      · intro r' q hq
        by_cases hqp : q = p
        · subst hqp
          simp only [set_same] at hq
          rcases hq with hq | hq
          · exact absurd hq (after_ne _ _).1
          · exact absurd hq (after_ne _ _).2
        · simp only [set_ne _ _ hqp] at hq
          simp only [set_ne _ _ (hother q r' hqp hq)]
          exact I.inLock r' q hq
      · intro r' hr'
        by_cases hr : r' = r
        · subst hr; simp [hc] at hr'
        · simp only [set_ne _ _ hr] at hr' ⊢
          exact I.unborn r' hr'
      · intro q r' hq
        by_cases hqp : q = p
        · subst hqp
          simp only [set_same] at hq
          exact absurd hq (after_ne _ _).1
        · simp only [set_ne _ _ hqp] at hq
          simp only [set_ne _ _ (hother q r' hqp (Or.inl hq))]
          exact I.opening q r' hq
      · intro q r' hq
        by_cases hqp : q = p
        · subst hqp
          simp only [set_same] at hq
          exact absurd hq (after_ne _ _).2
        · simp only [set_ne _ _ hqp] at hq
          simp only [set_ne _ _ (hother q r' hqp (Or.inr hq))]
          exact I.filling q r' hq
      · intro hr; simp [he] at hr
      · intro _ _; exact he
      · intro q r' hq
        by_cases hqp : q = p
        · subst hqp
          simp only [set_same] at hq ⊢
          rcases passed_after hq with rfl | hq
          · refine ⟨(W.proc q).given r', v, by simp, by simp [hc], ?_⟩
            rintro rfl
            exact Or.inr hw
          · have hq' : (W.proc q).pc.passed r' := by rw [h]; exact hq
            have hr : r' ≠ r := by rintro rfl; exact hnp q hq'
            simp only [set_ne _ _ hr]
            exact I.passed q r' hq'
        · simp only [set_ne _ _ hqp] at hq ⊢
          have hr : r' ≠ r := by rintro rfl; exact hnp q hq
          simp only [set_ne _ _ hr]
          exact I.passed q r' hq
  · next r h =>
    have he := I.entered p (by simp [h, PC.entered])
    split
    · next hl =>
      split
      · refine I.goto (root := W.root) id ?_ ?_ rfl ?_ ?_ <;> simp [h, PC.entered, PC.passed]
      · refine I.goto (root := W.root) id ?_ ?_ rfl ?_ ?_ <;> simp [h, PC.entered, PC.passed]
      · next v hv =>
        refine I.goto (root := W.root) id ?_ (fun r' => after_ne r r') rfl (fun _ => he) ?_
        · simp [h]
        · intro r' hr'
          rcases passed_after hr' with rfl | hr'
          · refine ⟨v, v, by simp, ?_, fun _ => Or.inl rfl⟩
            cases hver : (W.cell r').ver with
            | false => rw [I.unborn r' hver] at hv; cases hv
            | true => rw [← hver, ← hv]
          · have := I.passed p r' (by rw [h]; exact hr')
            by_cases hr : r' = r
            · subst hr; simp [PC.passed] at hr'
            · simpa [set_ne _ _ hr] using this
    · exact I

theorem Inv.act {W : World V} (I : Inv F W) (a : Act V) : Inv F (act F W a) := by
  cases a with
  | step p => exact I.step p
  | call p g =>
    have aux : (∀ r, (W.proc p).pc ≠ .openFile r ∧ (W.proc p).pc ≠ .fill r) →
        Inv F { W with proc := set W.proc p ⟨g, .start, fun _ => none⟩ } := by
      intro h
      refine I.goto (root := W.root) id h ?_ rfl ?_ ?_ <;> simp [PC.entered, PC.passed]
    simp only [Create.act]
    split
    · next h => exact aux (by simp [h])
    · next h => exact aux (by simp [h])
    · next h => exact aux (by simp [h])
    · exact I
  | kill p =>
    simp only [Create.act]
    constructor
    · intro r q hq
      simp only at hq
      split at hq
      · cases hq
      · next hn =>
        have hqp : q ≠ p := by rintro rfl; exact hn hq
        simp only [set_ne _ _ hqp]
        exact I.lockIn r q hq
    · intro r q hq
      by_cases hqp : q = p
      · subst hqp; simp at hq
      · simp only [set_ne _ _ hqp] at hq
        have := I.inLock r q hq
        simp [this, hqp]
    · exact I.unborn
    · intro q r hq
      by_cases hqp : q = p
      · subst hqp; simp at hq
      · simp only [set_ne _ _ hqp] at hq
        exact I.opening q r hq
    · intro q r hq
      by_cases hqp : q = p
      · subst hqp; simp at hq
      · simp only [set_ne _ _ hqp] at hq
        exact I.filling q r hq
    · exact I.born
    · intro q hq
      by_cases hqp : q = p
      · subst hqp; simp [PC.entered] at hq
      · simp only [set_ne _ _ hqp] at hq
        exact I.entered q hq
    · intro q r hq
      by_cases hqp : q = p
      · subst hqp; simp [PC.passed] at hq
      · simp only [set_ne _ _ hqp] at hq ⊢
        exact I.passed q r hq
  | put r v =>
    have aux : ∀ w v', r ≠ .info → (W.cell r).data = .whole w → (W.lock r) = none →
        Inv F { W with cell := set W.cell r { W.cell r with data := .whole v' } } := by
      intro w v' hi hd hl
      have hver : (W.cell r).ver = true := by
        cases hver : (W.cell r).ver with
        | true => rfl
        | false => rw [I.unborn r hver] at hd; cases hd
      have hcell : W.cell r = ⟨true, .whole w⟩ := by rw [← hver, ← hd]
      constructor
      · exact I.lockIn
      · exact I.inLock
      · intro r' hr'
        by_cases hr : r' = r
        · subst hr; simp [hver] at hr'
        · simp only [set_ne _ _ hr] at hr' ⊢
          exact I.unborn r' hr'
      · intro q r' hq
        have hr : r' ≠ r := by
          rintro rfl
          have := I.opening q r' hq
          rw [hcell] at this
          cases this
        simp only [set_ne _ _ hr]
        exact I.opening q r' hq
      · intro q r' hq
        have hr : r' ≠ r := by
          rintro rfl
          have := I.filling q r' hq
          rw [hcell] at this
          cases this
        simp only [set_ne _ _ hr]
        exact I.filling q r' hq
      · intro hr
        have := I.born hr r
        rw [hcell] at this
        cases this
      · exact I.entered
      · intro q r' hq
        obtain ⟨x, w', hx, hw', hi'⟩ := I.passed q r' hq
        by_cases hr : r' = r
        · subst hr
          exact ⟨x, v', hx, by simp [hver], fun h => absurd h hi⟩
        · exact ⟨x, w', hx, by simpa [set_ne _ _ hr] using hw', hi'⟩
    simp only [Create.act]
    split
    · exact I
    · split
      · next hni hd hv hl => exact aux _ _ (fun h => hni h) hd (by simpa using hl)
      · exact I
    · exact I

theorem Inv.run {W : World V} (I : Inv F W) (s : List (Act V)) : Inv F (run F W s) := by
  induction s generalizing W with
  | nil => exact I
  | cons a s ih => exact ih (I.act a)

end Neps.Create
