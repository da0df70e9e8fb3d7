import Verif.Create.Inv

/-!
# Invariants of schedules of calls
-/

namespace Neps.Create

variable {V : Type} {F : Format V}

theorem info_act {W : World V} (I : Inv F W) {v : V} (h : W.Has .info v) (a : Act V) :
    (act F W a).Has .info v := by
  unfold World.Has at *
  have hno : ∀ p, (W.proc p).pc ≠ .openFile .info ∧ (W.proc p).pc ≠ .fill .info := by
    intro p
    constructor
    · intro hp; have := I.opening p _ hp; rw [h] at this; cases this
    · intro hp; have := I.filling p _ hp; rw [h] at this; cases this
  cases a with
  | call p g =>
    simp only [act]
    split <;> exact h
  | kill p => exact h
  | put r v' =>
    simp only [act]
    split
    · exact h
    · next hni hd hv =>
      split
      · simp only
        rw [set_ne _ _ (fun h => hni h.symm)]
        exact h
      · exact h
    · exact h
  | step p =>
    simp only [act, step]
    split
    · exact h
    · exact h
    · exact h
    · exact h
    · exact h
    · split <;> exact h
    · next r hr =>
      split
      · split
        · exact h
        · next hver =>
          have : Res.info ≠ r := by rintro rfl; rw [h] at hver; simp at hver
          simp only [set_ne _ _ this]
          exact h
      · exact h
    · next r hr =>
      have : Res.info ≠ r := by rintro rfl; exact (hno p).1 hr
      simp only [set_ne _ _ this]
      exact h
    · next r hr =>
      have : Res.info ≠ r := by rintro rfl; exact (hno p).2 hr
      split
      · exact h
      · simp only [set_ne _ _ this]
        exact h
    · split
      · split <;> exact h
      · exact h

theorem info_run {W : World V} (I : Inv F W) {v : V} (h : W.Has .info v) (s : List (Act V)) :
    (run F W s).Has .info v := by
  induction s generalizing W with
  | nil => exact h
  | cons a s ih => exact ih (I.act a) (info_act I h a)

/-- How far a process that called after info `v` was stored can get. -/
def Proc.Joins (F : Format V) (v : V) (P : Proc V) : Prop :=
  match P.pc with
  | .idle | .start | .check | .failed _ => True
  | .mkdir isNew => isNew = false
  | _ => F.same v (P.given .info) = true

/-- A process that called after info `v` was stored. -/
structure Late (F : Format V) (v : V) (p : Nat) (W : World V) : Prop where
  inv : Inv F W
  has : W.Has .info v
  ok : (W.proc p).Joins F v

theorem Late.root {v : V} {p : Nat} {W : World V} (L : Late F v p W) : W.root = true := by
  cases h : W.root with
  | true => rfl
  | false =>
    have := L.inv.born h .info
    have h2 := L.has
    unfold World.Has at h2
    rw [h2] at this
    cases this

theorem Late.act {v : V} {p : Nat} {W : World V} (L : Late F v p W) (a : Act V) :
    Late F v p (act F W a) := by
  refine ⟨L.inv.act a, info_act L.inv L.has a, ?_⟩
  have ok := L.ok
  have hroot := L.root
  have hd : (W.cell .info).data = .whole v := by rw [show W.cell .info = _ from L.has]
  have okp : ∀ c, (W.proc p).pc = c → (match c with
      | .idle | .start | .check | .failed _ => True
      | .mkdir isNew => isNew = false
      | _ => F.same v ((W.proc p).given .info) = true) := by
    rintro c rfl; exact ok
  cases a with
  | call q g =>
    simp only [Create.act]
    by_cases hq : p = q
    · subst hq
      split
      · simp [Proc.Joins]
      · simp [Proc.Joins]
      · simp [Proc.Joins]
      · exact ok
    · split <;> first | exact ok | (simp only [set_ne _ _ hq]; exact ok)
  | kill q =>
    simp only [Create.act]
    by_cases hq : p = q
    · subst hq; simp [Proc.Joins]
    · simp only [set_ne _ _ hq]; exact ok
  | put r v' =>
    simp only [Create.act]
    split
    · exact ok
    · split <;> exact ok
    · exact ok
  | step q =>
    simp only [Create.act, step]
    by_cases hq : p = q
    · subst hq
      split
      · exact ok
      · exact ok
      · exact ok
      · simp [Proc.Joins, hroot]
      · next isNew h =>
        have := okp _ h
        simp only at this
        subst this
        simp [Proc.Joins]
      · rw [hd]
        cases hs : F.same v ((W.proc p).given .info) <;> simp [Proc.Joins, hs]
      · next r h =>
        have hs : F.same v ((W.proc p).given .info) = true := okp _ h
        split
        · split <;> simp [Proc.Joins, hs]
        · exact ok
      · next r h =>
        have hs : F.same v ((W.proc p).given .info) = true := okp _ h
        simp [Proc.Joins, hs]
      · next r h =>
        have hs : F.same v ((W.proc p).given .info) = true := okp _ h
        split
        · simp [Proc.Joins]
        · simp only [set_same]
          cases r <;> simp [Proc.Joins, PC.after, Res.next, hs]
      · next r h =>
        have hs : F.same v ((W.proc p).given .info) = true := okp _ h
        split
        · split
          · simp [Proc.Joins]
          · simp [Proc.Joins]
          · simp only [set_same]
            cases r <;> simp [Proc.Joins, PC.after, Res.next, hs]
        · exact ok
    · split
      · exact ok
      · exact ok
      · exact ok
      · simp only [set_ne _ _ hq]; exact ok
      · simp only [set_ne _ _ hq]; exact ok
      · split <;> simp only [set_ne _ _ hq] <;> exact ok
      · split
        · split <;> simp only [set_ne _ _ hq] <;> exact ok
        · exact ok
      · simp only [set_ne _ _ hq]; exact ok
      · split <;> simp only [set_ne _ _ hq] <;> exact ok
      · split
        · split <;> simp only [set_ne _ _ hq] <;> exact ok
        · exact ok

theorem Late.run {v : V} {p : Nat} {W : World V} (L : Late F v p W) (s : List (Act V)) :
    Late F v p (run F W s) := by
  induction s generalizing W with
  | nil => exact L
  | cons a s ih => exact ih (L.act a)

/-- All processes use the same info, which survives writing and reading. -/
structure Agree (F : Format V) (i w : V) (W : World V) : Prop where
  given : ∀ p, (W.proc p).pc ≠ .idle → (W.proc p).given .info = i
  stored : ∀ v, (W.cell .info).data = .whole v → v = w
  fine : ∀ p, (W.proc p).pc ≠ .failed .mismatch

theorem Agree.act {i w : V} {W : World V} (A : Agree F i w W)
    (hi : F.roundtrip .info i = some w) (hs : F.same w i = true) (a : Act V)
    (ha : ∀ p g, a = .call p g → g .info = i) : Agree F i w (act F W a) := by
  have key : ∀ (q : Nat) (P : Proc V) (root : Bool) (cell : Res → Cell V) (lock : Res → Option Nat),
      (P.pc ≠ .idle → P.given .info = i) → P.pc ≠ .failed .mismatch →
      (∀ v, (cell .info).data = .whole v → v = w) →
      Agree F i w ⟨root, cell, lock, set W.proc q P⟩ := by
    intro q P root cell lock h1 h2 h3
    refine ⟨fun p => ?_, h3, fun p => ?_⟩
    · by_cases hp : p = q
      · subst hp; simpa using h1
      · simpa [set_ne _ _ hp] using A.given p
    · by_cases hp : p = q
      · subst hp; simpa using h2
      · simpa [set_ne _ _ hp] using A.fine p
  cases a with
  | call q g =>
    simp only [Create.act]
    split
    all_goals first | exact A | skip
    all_goals exact key q _ _ _ _ (fun _ => ha q g rfl) (by simp) A.stored
  | kill q => exact key q _ _ _ _ (by simp) (by simp) A.stored
  | put r v' =>
    simp only [Create.act]
    split
    · exact A
    · next hni hd hv =>
      split
      · refine ⟨A.given, fun v hv => A.stored v ?_, A.fine⟩
        simpa [set_ne _ _ (fun h => hni h.symm : ¬ Res.info = _)] using hv
      · exact A
    · exact A
  | step q =>
    simp only [Create.act, step]
    have hgiv := A.given q
    split
    · exact A
    · exact A
    · exact A
    · next h => exact key q _ _ _ _ (fun _ => hgiv (by simp [h])) (by simp) A.stored
    · next isNew h =>
      exact key q _ _ _ _ (fun _ => hgiv (by simp [h])) (by cases isNew <;> simp) A.stored
    · next h =>
      have hgi : (W.proc q).given .info = i := hgiv (by simp [h])
      split
      · exact key q _ _ _ _ (fun _ => hgi) (by simp) A.stored
      · exact key q _ _ _ _ (fun _ => hgi) (by simp) A.stored
      · next v hv =>
        refine key q _ _ _ _ (fun _ => hgi) ?_ A.stored
        rw [hgi, A.stored v hv, hs]
        simp
    · next r h =>
      have hgi : (W.proc q).given .info = i := hgiv (by simp [h])
      split
      · split
        · exact key q _ _ _ _ (fun _ => hgi) (by simp) A.stored
        · refine key q _ _ _ _ (fun _ => hgi) (by simp) ?_
          intro v hv
          refine A.stored v ?_
          by_cases hr : Res.info = r
          · subst hr; simpa using hv
          · simpa [set_ne _ _ hr] using hv
      · exact A
    · next r h =>
      have hgi : (W.proc q).given .info = i := hgiv (by simp [h])
      refine key q _ _ _ _ (fun _ => hgi) (by simp) ?_
      intro v hv
      by_cases hr : Res.info = r
      · subst hr; simp at hv
      · exact A.stored v (by simpa [set_ne _ _ hr] using hv)
    · next r h =>
      have hgi : (W.proc q).given .info = i := hgiv (by simp [h])
      split
      · exact key q _ _ _ _ (fun _ => hgi) (by simp) A.stored
      · next w' hw' =>
        refine key q _ _ _ _ (fun _ => hgi) ?_ ?_
        · cases r <;> simp [PC.after, Res.next]
        · intro v hv
          by_cases hr : Res.info = r
          · subst hr
            rw [hgi, hi] at hw'
            simp only [set_same, File.whole.injEq] at hv
            simp only [Option.some.injEq] at hw'
            rw [← hv, hw']
          · exact A.stored v (by simpa [set_ne _ _ hr] using hv)
    · next r h =>
      have hgi : (W.proc q).given .info = i := hgiv (by simp [h])
      split
      · split
        · exact key q _ _ _ _ (fun _ => hgi) (by simp) A.stored
        · exact key q _ _ _ _ (fun _ => hgi) (by simp) A.stored
        · refine key q _ _ _ _ (fun _ => hgi) ?_ A.stored
          cases r <;> simp [PC.after, Res.next]
      · exact A

/-- Outside the locks every resource is complete or absent. -/
structure Usable (F : Format V) (W : World V) : Prop where
  inv : Inv F W
  clean : ∀ r, W.lock r = none → W.Lacks r ∨ ∃ v, W.Has r v
  writable : ∀ p r, (W.proc p).pc ≠ .idle → ∃ v, F.roundtrip r ((W.proc p).given r) = some v

theorem Usable.act {W : World V} (U : Usable F W) (a : Act V)
    (hk : ∀ p, a = .kill p → ¬ W.Writing p)
    (ha : ∀ p g, a = .call p g → ∀ r, ∃ v, F.roundtrip r (g r) = some v) :
    Usable F (act F W a) := by
  have key : ∀ (q : Nat) (P : Proc V) (root : Bool) (cell : Res → Cell V) (lock : Res → Option Nat),
      Inv F ⟨root, cell, lock, set W.proc q P⟩ →
      (P.pc ≠ .idle → ∀ r, ∃ v, F.roundtrip r (P.given r) = some v) →
      (∀ r, lock r = none → cell r = .empty ∨ ∃ v, cell r = ⟨true, .whole v⟩) →
      Usable F ⟨root, cell, lock, set W.proc q P⟩ := by
    intro q P root cell lock h0 h1 h2
    refine ⟨h0, h2, fun p r => ?_⟩
    by_cases hp : p = q
    · subst hp; intro h; simp only [set_same] at h ⊢; exact h1 h r
    · simpa [set_ne _ _ hp] using U.writable p r
  have I := U.inv.act a
  have hcl := U.clean
  unfold World.Has World.Lacks at hcl
  cases a with
  | call q g =>
    simp only [Create.act] at I ⊢
    split
    · next h => rw [h] at I; exact key q _ _ _ _ I (fun _ => ha q g rfl) hcl
    · next h => rw [h] at I; exact key q _ _ _ _ I (fun _ => ha q g rfl) hcl
    · next h => rw [h] at I; exact key q _ _ _ _ I (fun _ => ha q g rfl) hcl
    · exact U
  | kill q =>
    refine key q _ _ _ _ I (by simp) ?_
    intro r hr
    refine hcl r ?_
    cases hl : W.lock r with
    | none => rfl
    | some o =>
      exfalso
      rw [hl] at hr
      simp only [Option.some.injEq] at hr
      split at hr
      · next h =>
        subst h
        exact hk o rfl ⟨r, U.inv.lockIn r o hl⟩
      · cases hr
  | put r v' =>
    refine ⟨I, ?_, ?_⟩
    · simp only [Create.act]
      split
      · exact U.clean
      · next r0 _ _ _ _ _ hni hd hv =>
        split
        · intro r' hr'
          unfold World.Has World.Lacks
          simp only at hr' ⊢
          by_cases hr : r' = r0
          · subst hr
            right
            rcases hcl r' hr' with h | ⟨v, h⟩
            · rw [h] at hd; cases hd
            · simp [h]
          · rw [set_ne _ _ hr]
            exact hcl r' hr'
        · exact U.clean
      · exact U.clean
    · simp only [Create.act]
      split
      · exact U.writable
      · split <;> exact U.writable
      · exact U.writable
  | step q =>
    simp only [Create.act, step] at I ⊢
    have hwr := U.writable q
    split
    · exact U
    · exact U
    · exact U
    · next h => rw [h] at I; exact key q _ _ _ _ I (fun _ r => hwr r (by simp [h])) hcl
    · next h => rw [h] at I; exact key q _ _ _ _ I (fun _ r => hwr r (by simp [h])) hcl
    · next h =>
      rw [h] at I
      simp only at I
      split <;> next hd =>
        simp only [hd] at I; exact key q _ _ _ _ I (fun _ r => hwr r (by simp [h])) hcl
    · next r h =>
      rw [h] at I
      simp only at I
      split
      · next hl =>
        simp only [hl, if_true] at I
        split
        · next hv => simp only [hv, if_true] at I; exact key q _ _ _ _ I (fun _ r => hwr r (by simp [h])) hcl
        · next hv =>
          simp only [hv, Bool.false_eq_true, if_false] at I
          refine key q _ _ _ _ I (fun _ r => hwr r (by simp [h])) ?_
          intro r' hr'
          by_cases hr : r' = r
          · subst hr; simp at hr'
          · simp only [set_ne _ _ hr] at hr' ⊢
            exact hcl r' hr'
      · exact U
    · next r h =>
      rw [h] at I
      simp only at I
      refine key q _ _ _ _ I (fun _ r => hwr r (by simp [h])) ?_
      intro r' hr'
      have hl := U.inv.inLock r q (Or.inl h)
      have hr : r' ≠ r := by rintro rfl; rw [hl] at hr'; cases hr'
      rw [set_ne _ _ hr]
      exact hcl r' hr'
    · next r h =>
      rw [h] at I
      simp only at I
      obtain ⟨v, hv⟩ := hwr r (by simp [h])
      rw [hv] at I
      simp only [hv] at I ⊢
      refine key q _ _ _ _ I (fun _ r => hwr r (by simp [h])) ?_
      intro r' hr'
      by_cases hr : r' = r
      · subst hr
        right
        exact ⟨v, by simp [U.inv.filling q r' h]⟩
      · simp only [set_ne _ _ hr] at hr' ⊢
        exact hcl r' hr'
    · next r h =>
      rw [h] at I
      simp only at I
      split
      · next hl =>
        simp only [hl, if_true] at I
        split <;> next hd =>
          simp only [hd] at I; exact key q _ _ _ _ I (fun _ r => hwr r (by simp [h])) hcl
      · exact U

/-- Resource `r` was broken by a kill or by a value that cannot be written. -/
structure Broken (r : Res) (W : World V) : Prop where
  ver : (W.cell r).ver = true
  bad : ∀ v, (W.cell r).data ≠ .whole v
  out : ∀ p, (W.proc p).pc ≠ .openFile r ∧ (W.proc p).pc ≠ .fill r ∧ ¬ (W.proc p).pc.passed r

theorem passed_after_of_ne {r r' : Res} (h : (PC.after r).passed r') (hne : r' ≠ r) :
    (PC.create r).passed r' := (passed_after h).resolve_left hne

theorem Broken.act {r : Res} {W : World V} (B : Broken r W) (a : Act V) :
    Broken r (act F W a) := by
  have key : ∀ (q : Nat) (P : Proc V) (root : Bool) (cell : Res → Cell V) (lock : Res → Option Nat),
      (cell r).ver = true → (∀ v, (cell r).data ≠ .whole v) →
      (P.pc ≠ .openFile r ∧ P.pc ≠ .fill r ∧ ¬ P.pc.passed r) →
      Broken r ⟨root, cell, lock, set W.proc q P⟩ := by
    intro q P root cell lock h1 h2 h3
    refine ⟨h1, h2, fun p => ?_⟩
    by_cases hp : p = q
    · subst hp; simpa using h3
    · simpa [set_ne _ _ hp] using B.out p
  cases a with
  | call q g =>
    simp only [Create.act]
    split
    · exact key q _ _ _ _ B.ver B.bad (by simp [PC.passed])
    · exact key q _ _ _ _ B.ver B.bad (by simp [PC.passed])
    · exact key q _ _ _ _ B.ver B.bad (by simp [PC.passed])
    · exact B
  | kill q => exact key q _ _ _ _ B.ver B.bad (by simp [PC.passed])
  | put r' v' =>
    simp only [Create.act]
    split
    · exact B
    · next r0 _ _ _ _ _ hni hd hv =>
      split
      · have hr : r ≠ r0 := by rintro rfl; exact B.bad _ hd
        refine ⟨?_, ?_, B.out⟩
        · simpa [set_ne _ _ hr] using B.ver
        · simpa [set_ne _ _ hr] using B.bad
      · exact B
    · exact B
  | step q =>
    have hout := B.out q
    simp only [Create.act, step]
    split
    · exact B
    · exact B
    · exact B
    · exact key q _ _ _ _ B.ver B.bad (by simp [PC.passed])
    · next isNew h =>
      exact key q _ _ _ _ B.ver B.bad
        (by cases isNew <;> cases r <;> simp [PC.passed, Res.idx])
    · split
      · exact key q _ _ _ _ B.ver B.bad (by simp [PC.passed])
      · exact key q _ _ _ _ B.ver B.bad (by simp [PC.passed])
      · next v hv =>
        refine key q _ _ _ _ B.ver B.bad ?_
        cases F.same v ((W.proc q).given .info) <;> cases r <;> simp [PC.passed, Res.idx]
    · next r' h =>
      rw [h] at hout
      split
      · split
        · exact key q _ _ _ _ B.ver B.bad ⟨by simp, by simp, hout.2.2⟩
        · next hv =>
          have hr : r ≠ r' := by rintro rfl; exact hv B.ver
          refine key q _ _ _ _ ?_ ?_ ⟨?_, by simp, hout.2.2⟩
          · simpa [set_ne _ _ hr] using B.ver
          · simpa [set_ne _ _ hr] using B.bad
          · simpa using hr.symm
      · exact B
    · next r' h =>
      rw [h] at hout
      have hr : r ≠ r' := by rintro rfl; exact hout.1 rfl
      refine key q _ _ _ _ ?_ ?_ ⟨by simp, by simpa using hr.symm, hout.2.2⟩
      · simpa [set_ne _ _ hr] using B.ver
      · simpa [set_ne _ _ hr] using B.bad
    · next r' h =>
      rw [h] at hout
      have hr : r ≠ r' := by rintro rfl; exact hout.2.1 rfl
      split
      · exact key q _ _ _ _ B.ver B.bad (by simp [PC.passed])
      · refine key q _ _ _ _ ?_ ?_ ⟨(after_ne _ _).1, (after_ne _ _).2, ?_⟩
        · simpa [set_ne _ _ hr] using B.ver
        · simpa [set_ne _ _ hr] using B.bad
        · intro hp
          exact hout.2.2 (passed_after_of_ne hp hr)
    · next r' h =>
      rw [h] at hout
      split
      · split
        · exact key q _ _ _ _ B.ver B.bad (by simp [PC.passed])
        · exact key q _ _ _ _ B.ver B.bad (by simp [PC.passed])
        · next v hv =>
          have hr : r ≠ r' := by rintro rfl; exact B.bad _ hv
          refine key q _ _ _ _ B.ver B.bad ⟨(after_ne _ _).1, (after_ne _ _).2, ?_⟩
          intro hp
          exact hout.2.2 (passed_after_of_ne hp hr)
      · exact B

theorem Broken.run {r : Res} {W : World V} (B : Broken r W) (s : List (Act V)) :
    Broken r (run F W s) := by
  induction s generalizing W with
  | nil => exact B
  | cons a s ih => exact ih (B.act a)

/-- The root directory exists and there is no info in it. -/
structure NoInfo (W : World V) : Prop where
  root : W.root = true
  bad : ∀ v, (W.cell .info).data ≠ .whole v
  out : ∀ p, (W.proc p).pc = .idle ∨ (W.proc p).pc = .start ∨ (W.proc p).pc = .mkdir false ∨
    (W.proc p).pc = .check ∨ ∃ e, (W.proc p).pc = .failed e

theorem NoInfo.act {W : World V} (B : NoInfo W) (a : Act V) : NoInfo (act F W a) := by
  have key : ∀ (q : Nat) (P : Proc V) (lock : Res → Option Nat),
      (P.pc = .idle ∨ P.pc = .start ∨ P.pc = .mkdir false ∨ P.pc = .check ∨
        ∃ e, P.pc = .failed e) →
      NoInfo ⟨true, W.cell, lock, set W.proc q P⟩ := by
    intro q P lock h3
    refine ⟨rfl, B.bad, fun p => ?_⟩
    by_cases hp : p = q
    · subst hp; simpa using h3
    · simpa [set_ne _ _ hp] using B.out p
  cases a with
  | call q g =>
    simp only [Create.act, B.root]
    split
    · exact key q _ _ (by simp)
    · exact key q _ _ (by simp)
    · exact key q _ _ (by simp)
    · exact B
  | kill q =>
    simp only [Create.act, B.root]
    exact key q _ _ (by simp)
  | put r' v' =>
    simp only [Create.act]
    split
    · exact B
    · next r0 _ _ _ _ _ hni hd hv =>
      split
      · have hr : Res.info ≠ r0 := fun h => hni h.symm
        refine ⟨B.root, ?_, B.out⟩
        simpa [set_ne _ _ hr] using B.bad
      · exact B
    · exact B
  | step q =>
    rcases B.out q with h | h | h | h | ⟨e, h⟩
    · simpa [Create.act, step, h] using B
    · simp only [Create.act, step, h, B.root]
      exact key q _ _ (by simp)
    · simp only [Create.act, step, h]
      exact key q _ _ (by simp)
    · simp only [Create.act, step, h, B.root]
      split
      · exact key q _ _ (by simp)
      · exact key q _ _ (by simp)
      · next v hv => exact absurd hv (B.bad v)
    · simpa [Create.act, step, h] using B

theorem NoInfo.run {W : World V} (B : NoInfo W) (s : List (Act V)) : NoInfo (run F W s) := by
  induction s generalizing W with
  | nil => exact B
  | cons a s ih => exact ih (B.act a)

end Neps.Create
