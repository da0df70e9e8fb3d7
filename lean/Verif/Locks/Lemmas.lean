import Verif.Locks.Spec
import Mathlib.Algebra.BigOperators.Group.List.Basic
import Mathlib.Data.List.Induction
import Mathlib.Algebra.BigOperators.Group.Finset.Basic
import Mathlib.Algebra.Order.BigOperators.Group.Finset

/-!
# Well-nested programs with a fixed order of locks
-/

namespace Neps.Locks

/-- The order in which locks are taken. -/
def rank : Lock → Nat
  | .optState => 0
  | .seed => 1
  | _ => 2

/-- The locks are released in reverse order and all at the end; the objective runs without locks and
the optimizer with two. -/
def Balanced : List Lock → List Instr → Prop
  | h, [] => h = []
  | h, .acq l :: is => Balanced (l :: h) is
  | h, .rel l :: is => ∃ t, h = l :: t ∧ Balanced t is
  | h, .work .objective :: is => h = [] ∧ Balanced h is
  | h, .work .ask :: is => h = [.seed, .optState] ∧ Balanced h is

/-- Locks are taken in increasing order. -/
def Ranked : List Lock → List Instr → Prop
  | _, [] => True
  | h, .acq l :: is => (∀ k ∈ h, rank k < rank l) ∧ Ranked (l :: h) is
  | h, .rel l :: is => Ranked (h.erase l) is
  | h, .work _ :: is => Ranked h is

theorem balanced_locked (h : List Lock) (l : Lock) (is : List Instr) :
    Balanced h (locked l ++ is) ↔ Balanced h is := by
  simp [locked, Balanced]

theorem ranked_locked (h : List Lock) (l : Lock) (is : List Instr) :
    Ranked h (locked l ++ is) ↔ (∀ k ∈ h, rank k < rank l) ∧ Ranked h is := by
  simp [locked, Ranked]

theorem balanced_allTrials (h : List Lock) (ts : List (String × Bool)) (is : List Instr) :
    Balanced h (allTrials ts ++ is) ↔ Balanced h is := by
  induction ts with
  | nil => simp [allTrials]
  | cons t ts ih =>
    simp only [allTrials, List.flatMap_cons, List.append_assoc] at ih ⊢
    unfold getById at ih ⊢
    split
    · simpa using ih
    · rw [balanced_locked, ih]

theorem balanced_syncAll (h : List Lock) (ts : List (String × Bool)) (is : List Instr) :
    Balanced h (syncAll ts ++ is) ↔ Balanced h is := by
  induction ts with
  | nil => simp [syncAll]
  | cons t ts ih =>
    simp only [syncAll, List.flatMap_cons, List.append_assoc, balanced_locked] at ih ⊢
    exact ih

theorem balanced_fetch (h : List Lock) (ids : List String) (is : List Instr) :
    Balanced h ((ids.flatMap fun id => locked (.trial id)) ++ is) ↔ Balanced h is := by
  induction ids with
  | nil => simp
  | cons t ts ih =>
    simp only [List.flatMap_cons, List.append_assoc, balanced_locked] at ih ⊢
    exact ih

theorem balanced_getById (h : List Lock) (t : String × Bool) (is : List Instr) :
    Balanced h (getById t ++ is) ↔ Balanced h is := by
  unfold getById
  split
  · simp
  · rw [balanced_locked]

theorem balanced_newOrLoad (h : List Lock) (l : Lock) (b : Bool) (is : List Instr) :
    Balanced h (newOrLoad l b ++ is) ↔ Balanced h is := by
  unfold newOrLoad
  split <;> simp only [List.append_assoc, balanced_locked]

theorem balanced_getAllTrials (h : List Lock) (ts : List (String × Bool)) (is : List Instr) :
    Balanced h (getAllTrials ts ++ is) ↔ Balanced h is := by
  simp only [getAllTrials, List.append_assoc, balanced_allTrials, balanced_syncAll]

theorem balanced_loadState (h : List Lock) (is : List Instr) :
    Balanced h (loadState ++ is) ↔ Balanced h is := by
  simp only [loadState, List.append_assoc, balanced_locked]

theorem balanced_program (op : Operation) : Balanced [] (program op) := by
  rw [← List.append_nil (program op)]
  cases op with
  | create i s e o =>
    simp only [program, List.append_assoc, balanced_newOrLoad]; rfl
  | readErrors => simp only [program, balanced_locked]; rfl
  | sweep ts => simp only [program, balanced_getAllTrials]; rfl
  | nextPending ts found =>
    simp only [program, List.append_assoc, balanced_getAllTrials, balanced_fetch]; rfl
  | sample ts look new =>
    simp only [program, List.append_assoc, List.cons_append, List.nil_append, Balanced,
      balanced_getAllTrials, true_and]
    rcases look with _ | ts' <;> rcases new with _ | id <;>
      simp [Balanced, List.append_assoc, balanced_loadState, balanced_getAllTrials,
        balanced_locked]
  | putUpdated t => simp only [program, List.append_assoc, balanced_getById, balanced_locked]; rfl
  | evaluate => simp [program, Balanced]
  | report t err =>
    simp only [program, List.append_assoc, balanced_getById, balanced_locked]
    cases err <;> simp [Balanced, locked]
  | getTrial t => simp only [program, List.append_assoc, balanced_getById, balanced_locked]; rfl
  | status ts =>
    simp only [program, List.append_assoc, balanced_loadState, balanced_getAllTrials]; rfl
  | csv ts =>
    simp only [program, List.append_assoc, balanced_loadState, balanced_getAllTrials,
      balanced_locked]; rfl

/-! Ranks: while at most the state of the optimizer and the seed are locked, trials may be. -/

/-- Only locks below the trials. -/
def Low (h : List Lock) : Prop := ∀ k ∈ h, rank k < 2

theorem ranked_syncAll {h : List Lock} (hl : Low h) (ts : List (String × Bool)) (is : List Instr) :
    Ranked h (syncAll ts ++ is) ↔ Ranked h is := by
  induction ts with
  | nil => simp [syncAll]
  | cons t ts ih =>
    simp only [syncAll, List.flatMap_cons, List.append_assoc, ranked_locked] at ih ⊢
    rw [ih]
    exact and_iff_right hl

theorem ranked_getById {h : List Lock} (hl : Low h) (t : String × Bool) (is : List Instr) :
    Ranked h (getById t ++ is) ↔ Ranked h is := by
  unfold getById
  split
  · simp
  · rw [ranked_locked]
    exact and_iff_right hl

theorem ranked_allTrials {h : List Lock} (hl : Low h) (ts : List (String × Bool))
    (is : List Instr) : Ranked h (allTrials ts ++ is) ↔ Ranked h is := by
  induction ts with
  | nil => simp [allTrials]
  | cons t ts ih =>
    simp only [allTrials, List.flatMap_cons, List.append_assoc] at ih ⊢
    rw [ranked_getById hl, ih]

theorem ranked_getAllTrials {h : List Lock} (hl : Low h) (ts : List (String × Bool))
    (is : List Instr) : Ranked h (getAllTrials ts ++ is) ↔ Ranked h is := by
  simp only [getAllTrials, List.append_assoc, ranked_allTrials hl, ranked_syncAll hl]

theorem ranked_fetch {h : List Lock} (hl : Low h) (ids : List String) (is : List Instr) :
    Ranked h ((ids.flatMap fun id => locked (.trial id)) ++ is) ↔ Ranked h is := by
  induction ids with
  | nil => simp
  | cons t ts ih =>
    simp only [List.flatMap_cons, List.append_assoc, ranked_locked] at ih ⊢
    rw [ih]
    exact and_iff_right hl

theorem low_nil : Low [] := by simp [Low]

theorem ranked_newOrLoad (l : Lock) (b : Bool) (is : List Instr) :
    Ranked [] (newOrLoad l b ++ is) ↔ Ranked [] is := by
  unfold newOrLoad
  split <;> simp [List.append_assoc, ranked_locked]

theorem ranked_loadState (is : List Instr) :
    Ranked [] (loadState ++ is) ↔ Ranked [] is := by
  simp [loadState, List.append_assoc, ranked_locked]

theorem ranked_program (op : Operation) (hq : op.quiet) : Ranked [] (program op) := by
  rw [← List.append_nil (program op)]
  cases op with
  | create i s e o =>
    simp only [program, List.append_assoc, ranked_newOrLoad]; trivial
  | readErrors => simp [program, locked, Ranked]
  | sweep ts => simp only [program, ranked_getAllTrials low_nil]; trivial
  | nextPending ts found =>
    simp only [program, List.append_assoc, ranked_getAllTrials low_nil, ranked_fetch low_nil]
    trivial
  | sample ts look new =>
    obtain rfl : look = none := hq
    have hl : Low [.seed, .optState] := by simp [Low, rank]
    simp only [program, List.append_assoc, List.cons_append, List.nil_append, Ranked,
      ranked_getAllTrials hl]
    rcases new with _ | id <;> simp [Ranked, ranked_locked, rank]
  | putUpdated t =>
    simp only [program, List.append_assoc, ranked_getById low_nil, ranked_locked]
    simp [Ranked]
  | evaluate => simp [program, Ranked]
  | report t err =>
    simp only [program, List.append_assoc, ranked_getById low_nil, ranked_locked]
    cases err <;> simp [Ranked, locked]
  | getTrial t =>
    simp only [program, List.append_assoc, ranked_getById low_nil, ranked_locked]
    simp [Ranked]
  | status ts =>
    simp only [program, List.append_assoc, ranked_loadState, ranked_getAllTrials low_nil]; trivial
  | csv ts =>
    simp only [program, List.append_assoc, ranked_loadState, ranked_getAllTrials low_nil,
      ranked_locked]
    simp [Ranked]

/-! ## Invariants -/

/-- What holds in every reachable state. -/
structure Inv (W : World) : Prop where
  balanced : ∀ p, Balanced (W p).held (W p).todo
  excl : ∀ p q l, l ∈ (W p).held → l ∈ (W q).held → p = q
  dead : ∀ p, (W p).alive = false → (W p).todo = [] ∧ (W p).held = []

theorem set_same (W : World) (p : Nat) (x : Proc) : set W p x p = x := by simp [set]

theorem set_other (W : World) {p q : Nat} (x : Proc) (h : q ≠ p) : set W p x q = W q := by
  simp [set, h]

/-- Replacing a process by one with fewer locks. -/
theorem Inv.set {W : World} (I : Inv W) (p : Nat) (x : Proc) (hb : Balanced x.held x.todo)
    (hs : ∀ l ∈ x.held, l ∈ (W p).held ∨ Free W l)
    (hd : x.alive = false → x.todo = [] ∧ x.held = []) : Inv (set W p x) where
  balanced := by
    intro q
    by_cases h : q = p
    · subst h; rw [set_same]; exact hb
    · rw [set_other W x h]; exact I.balanced q
  excl := by
    intro q r l h1 h2
    by_cases hq : q = p <;> by_cases hr : r = p
    · rw [hq, hr]
    · subst hq
      rw [set_same] at h1
      rw [set_other W x hr] at h2
      rcases hs l h1 with h | h
      · exact I.excl q r l h h2
      · exact absurd h2 (h r)
    · subst hr
      rw [set_same] at h2
      rw [set_other W x hq] at h1
      rcases hs l h2 with h | h
      · exact I.excl q r l h1 h
      · exact absurd h1 (h q)
    · rw [set_other W x hq] at h1
      rw [set_other W x hr] at h2
      exact I.excl q r l h1 h2
  dead := by
    intro q
    by_cases h : q = p
    · subst h; rw [set_same]; exact hd
    · rw [set_other W x h]; exact I.dead q

theorem Inv.idle {W : World} (I : Inv W) {p : Nat} (h : (W p).todo = []) : (W p).held = [] := by
  have := I.balanced p
  rw [h] at this
  exact this

theorem Inv.act {W : World} (I : Inv W) (a : Act) : Inv (act W a) := by
  cases a with
  | start p op =>
    simp only [Locks.act]
    split
    · rename_i h
      refine I.set p _ ?_ (fun l hl => Or.inl hl) (by simp [h.1])
      rw [I.idle h.2]
      exact balanced_program op
    · exact I
  | step p =>
    simp only [Locks.act]
    split
    · rename_i ha
      have hb := I.balanced p
      unfold stepP
      split
      · exact I
      · rename_i l is ht
        rw [ht] at hb
        split
        · rename_i hf
          refine I.set p _ hb ?_ (by simp [ha])
          intro k hk
          simp only [List.mem_cons] at hk
          rcases hk with rfl | hk
          · exact Or.inr hf
          · exact Or.inl hk
        · exact I
      · rename_i l is ht
        rw [ht] at hb
        obtain ⟨t, h1, h2⟩ := hb
        refine I.set p _ ?_ ?_ (by simp [ha])
        · simpa [h1] using h2
        · intro k hk
          exact Or.inl (List.mem_of_mem_erase hk)
      · rename_i w is ht
        rw [ht] at hb
        refine I.set p _ ?_ (fun l hl => Or.inl hl) (by simp [ha])
        cases w <;> exact hb.2
    · exact I
  | raise p => exact I.set p _ rfl (by simp) (fun _ => ⟨rfl, rfl⟩)
  | kill p => exact I.set p _ rfl (by simp) (fun _ => ⟨rfl, rfl⟩)

theorem run_append (as : List Act) (a : Act) : run (as ++ [a]) = act (run as) a := by
  simp [run]

theorem inv_run (as : List Act) : Inv (run as) := by
  induction as using List.reverseRecOn with
  | nil => exact ⟨fun _ => rfl, by simp [run], by simp [run]⟩
  | append_singleton as a ih => rw [run_append]; exact ih.act a

/-- What holds in addition if no hook looks at the run. -/
def RankedAll (W : World) : Prop := ∀ p, Ranked (W p).held (W p).todo

theorem ranked_set {W : World} (h : RankedAll W) (p : Nat) (x : Proc)
    (hx : Ranked x.held x.todo) : RankedAll (set W p x) := by
  intro q
  by_cases e : q = p
  · subst e; rw [set_same]; exact hx
  · rw [set_other W x e]; exact h q

theorem ranked_stepP {W : World} (h : RankedAll W) (p : Nat) : RankedAll (stepP W p) := by
  have hp := h p
  unfold stepP
  split
  · exact h
  · rename_i l is ht
    rw [ht] at hp
    split
    · exact ranked_set h p _ hp.2
    · exact h
  · rename_i l is ht
    rw [ht] at hp
    exact ranked_set h p _ hp
  · rename_i w is ht
    rw [ht] at hp
    exact ranked_set h p _ hp

theorem ranked_act {W : World} (I : Inv W) (h : RankedAll W) (a : Act)
    (hq : ∀ p op, a = .start p op → op.quiet) : RankedAll (act W a) := by
  cases a with
  | start p op =>
    simp only [act]
    split
    · rename_i hh
      refine ranked_set h p _ ?_
      rw [I.idle hh.2]
      exact ranked_program op (hq p op rfl)
    · exact h
  | step p =>
    simp only [act]
    split
    · exact ranked_stepP h p
    · exact h
  | raise p => exact ranked_set h p _ trivial
  | kill p => exact ranked_set h p _ trivial

theorem ranked_run (as : List Act) (hq : Quiet as) : RankedAll (run as) := by
  induction as using List.reverseRecOn with
  | nil => intro p; trivial
  | append_singleton as a ih =>
    rw [run_append]
    exact ranked_act (inv_run as) (ih fun p op h => hq p op (by simp [h])) a
      fun p op h => hq p op (by simp [h])

/-- Somebody who is busy need not wait. -/
theorem exists_ready {W : World} (I : Inv W) (R : RankedAll W) :
    ∀ n p, Busy W p → (∀ l, Waits W p l → 2 - rank l ≤ n) →
      ∃ q, Busy W q ∧ ∀ l, ¬ Waits W q l := by
  intro n
  induction n with
  | zero =>
    intro p hb hn
    by_cases hw : ∃ l, Waits W p l
    · obtain ⟨l, hw⟩ := hw
      have hr := hn l hw
      obtain ⟨-, q, hq⟩ := hw
      refine ⟨q, ?_, ?_⟩
      · intro h
        rw [I.idle h] at hq
        simp at hq
      · rintro k ⟨⟨is, hk⟩, -⟩
        have := R q
        rw [hk] at this
        have h1 := this.1 l hq
        have : rank k ≤ 2 := by unfold rank; split <;> omega
        omega
    · exact ⟨p, hb, fun l hl => hw ⟨l, hl⟩⟩
  | succ n ih =>
    intro p hb hn
    by_cases hw : ∃ l, Waits W p l
    · obtain ⟨l, hw⟩ := hw
      have hr := hn l hw
      obtain ⟨-, q, hq⟩ := hw
      refine ih q ?_ ?_
      · intro h
        rw [I.idle h] at hq
        simp at hq
      · rintro k ⟨⟨is, hk⟩, -⟩
        have := R q
        rw [hk] at this
        have h1 := this.1 l hq
        omega
    · exact ⟨p, hb, fun l hl => hw ⟨l, hl⟩⟩

/-- A busy process that need not wait gets one instruction further. -/
theorem step_ready {W : World} (I : Inv W) {p : Nat} (hb : Busy W p)
    (hw : ∀ l, ¬ Waits W p l) :
    (∀ q, q ≠ p → act W (.step p) q = W q) ∧
      (act W (.step p) p).todo = (W p).todo.tail := by
  have ha : (W p).alive = true := by
    by_contra h
    exact hb (I.dead p (by simpa using h)).1
  simp only [act, ha, if_true]
  cases ht : (W p).todo with
  | nil => exact absurd ht hb
  | cons i is =>
    cases i with
    | acq l =>
      have hf : Free W l := by
        intro q hq
        exact hw l ⟨⟨is, ht⟩, q, hq⟩
      simp only [stepP, ht, if_pos hf]
      exact ⟨fun q hq => set_other W _ hq, by rw [set_same]; rfl⟩
    | rel l =>
      simp only [stepP, ht]
      exact ⟨fun q hq => set_other W _ hq, by rw [set_same]; rfl⟩
    | work w =>
      simp only [stepP, ht]
      exact ⟨fun q hq => set_other W _ hq, by rw [set_same]; rfl⟩

theorem stepP_other (W : World) {p q : Nat} (h : q ≠ p) : stepP W p q = W q := by
  cases ht : (W p).todo with
  | nil => simp only [stepP, ht]
  | cons i is =>
    cases i with
    | acq l =>
      simp only [stepP, ht]
      split
      · exact set_other W _ h
      · rfl
    | rel l => simp only [stepP, ht]; exact set_other W _ h
    | work w => simp only [stepP, ht]; exact set_other W _ h

/-- The instructions that are left. -/
def left (n : Nat) (W : World) : Nat := ∑ p ∈ Finset.range n, (W p).todo.length

theorem left_step {W : World} (I : Inv W) {n p : Nat} (hp : p < n) (hb : Busy W p)
    (hw : ∀ l, ¬ Waits W p l) : left n (act W (.step p)) + 1 = left n W := by
  obtain ⟨h1, h2⟩ := step_ready I hb hw
  unfold left
  rw [← Finset.add_sum_erase _ _ (Finset.mem_range.2 hp),
    ← Finset.add_sum_erase (Finset.range n) (fun q => (W q).todo.length) (Finset.mem_range.2 hp)]
  have e : ∑ q ∈ (Finset.range n).erase p, (act W (.step p) q).todo.length =
      ∑ q ∈ (Finset.range n).erase p, (W q).todo.length :=
    Finset.sum_congr rfl fun q hq => by rw [h1 q (Finset.ne_of_mem_erase hq)]
  have e2 : (W p).todo.length = (W p).todo.tail.length + 1 := by
    have : (W p).todo ≠ [] := hb
    cases h : (W p).todo with
    | nil => exact absurd h this
    | cons a l => simp
  rw [e, h2]
  simp only [e2]
  omega

theorem finish {n : Nat} : ∀ (k : Nat) (W : World), Inv W → RankedAll W →
    (∀ p, n ≤ p → (W p).todo = []) → left n W = k →
    ∃ bs : List Act, (∀ b ∈ bs, b.isStep = true) ∧ bs.length = k ∧
      ∀ p, ¬ Busy (bs.foldl act W) p := by
  intro k
  induction k with
  | zero =>
    intro W I R hn hl
    refine ⟨[], by simp, rfl, ?_⟩
    intro p hb
    by_cases hp : p < n
    · have := (Finset.sum_eq_zero_iff.1 hl) p (Finset.mem_range.2 hp)
      exact hb (List.length_eq_zero_iff.1 this)
    · exact hb (hn p (by omega))
  | succ k ih =>
    intro W I R hn hl
    have : ∃ p, Busy W p := by
      by_contra h
      push Not at h
      have : left n W = 0 := Finset.sum_eq_zero fun p _ => by
        have := h p
        simp only [Busy, not_not] at this
        simp [this]
      omega
    obtain ⟨p, hp⟩ := this
    obtain ⟨q, hq, hw⟩ := exists_ready I R 2 p hp (fun _ _ => by omega)
    have hqn : q < n := by
      by_contra h
      exact hq (hn q (by omega))
    have h1 := left_step I hqn hq hw
    have hn' : ∀ r, n ≤ r → (act W (.step q) r).todo = [] := by
      intro r hr
      rw [(step_ready I hq hw).1 r (by omega)]
      exact hn r hr
    obtain ⟨bs, b1, b2, b3⟩ := ih (act W (.step q)) (I.act _)
      (ranked_act I R _ (by simp)) hn' (by omega)
    exact ⟨.step q :: bs, by simpa [Act.isStep] using b1, by simp [b2], b3⟩

theorem idle_run (n : Nat) (as : List Act) (h : Among n as) :
    ∀ p, n ≤ p → (run as p).todo = [] := by
  induction as using List.reverseRecOn with
  | nil => simp [run]
  | append_singleton as a ih =>
    have ih := ih fun p op hh => h p op (by simp [hh])
    intro p hp
    have ihp := ih p hp
    rw [run_append]
    cases a with
    | start q op =>
      have : q < n := h q op (by simp)
      simp only [act]
      split
      · rw [set_other _ _ (by omega)]; exact ihp
      · exact ihp
    | step q =>
      simp only [act]
      split
      · by_cases e : p = q
        · subst e
          unfold stepP
          simp [ihp]
        · rw [stepP_other _ e]; exact ihp
      · exact ihp
    | raise q =>
      simp only [act]
      by_cases e : p = q
      · subst e; rw [set_same]
      · rw [set_other _ _ e]; exact ihp
    | kill q =>
      simp only [act]
      by_cases e : p = q
      · subst e; rw [set_same]
      · rw [set_other _ _ e]; exact ihp

end Neps.Locks
