import Verif.Overwrite.Spec

/-!
# Lemmas for C162
-/

namespace Neps.Overwrite

theorem run_append (W : World) (s t : List Event) : run W (s ++ t) = run (run W s) t := by
  induction s generalizing W with
  | nil => rfl
  | cons a s ih => exact ih _

theorem upd_same {α : Type} (f : Nat → α) (w : Nat) (a : α) : upd f w a w = a := by simp [upd]

theorem upd_other {α : Type} (f : Nat → α) {w x : Nat} (a : α) (h : x ≠ w) : upd f w a x = f x := by
  simp [upd, h]

theorem mem_setSlot {l : List (Nat × Slot)} {id i : Nat} {s t : Slot} (h : (i, t) ∈ setSlot l id s) :
    (i, t) ∈ l ∨ (i = id ∧ t = s) := by
  simp only [setSlot, List.mem_map] at h
  obtain ⟨⟨j, u⟩, hm, he⟩ := h
  split at he
  · simp only [Prod.mk.injEq] at he; exact Or.inr ⟨he.1.symm, he.2.symm⟩
  · rw [he] at hm; exact Or.inl hm

theorem setSlot_mem {l : List (Nat × Slot)} {id i : Nat} {s t : Slot} (h : (i, t) ∈ l) :
    (i = id ∧ (i, s) ∈ setSlot l id s) ∨ (i ≠ id ∧ (i, t) ∈ setSlot l id s) := by
  by_cases hi : i = id
  · refine Or.inl ⟨hi, ?_⟩
    simp only [setSlot, List.mem_map]
    exact ⟨(i, t), h, by simp [hi]⟩
  · refine Or.inr ⟨hi, ?_⟩
    simp only [setSlot, List.mem_map]
    exact ⟨(i, t), h, by simp [hi]⟩

theorem lookup_mem {l : List (Nat × Slot)} {id : Nat} {s : Slot} (h : l.lookup id = some s) :
    (id, s) ∈ l := by
  induction l with
  | nil => simp at h
  | cons p l ih =>
    obtain ⟨i, t⟩ := p
    rw [List.lookup_cons] at h
    by_cases hi : id = i
    · subst hi; simp at h; simp [h]
    · have : (id == i) = false := by simpa using hi
      rw [this] at h
      exact List.mem_cons_of_mem _ (ih h)

theorem mem_lookup {l : List (Nat × Slot)} (hl : (l.map Prod.fst).Nodup) {id : Nat} {s : Slot}
    (h : (id, s) ∈ l) : l.lookup id = some s := by
  induction l with
  | nil => simp at h
  | cons p l ih =>
    obtain ⟨i, t⟩ := p
    rw [List.lookup_cons]
    simp only [List.map_cons, List.nodup_cons] at hl
    rcases List.mem_cons.mp h with h' | h'
    · simp only [Prod.mk.injEq] at h'; simp [h'.1, h'.2]
    · have : id ≠ i := by
        rintro rfl; exact hl.1 (List.mem_map.mpr ⟨(id, s), h', rfl⟩)
      have : (id == i) = false := by simpa using this
      rw [this]
      exact ih hl.2 h'

theorem setSlot_keys (l : List (Nat × Slot)) (id : Nat) (s : Slot) :
    (setSlot l id s).map Prod.fst = l.map Prod.fst := by
  simp only [setSlot, List.map_map]
  apply List.map_congr_left
  intro p _
  simp only [Function.comp]
  split
  · next h => exact h.symm
  · rfl

/-- The invariant of every history: the ids are distinct, numbers in use are below the next one, results
belong to their trial, and who holds the version of a trial evaluates its configuration. -/
structure Inv (W : World) : Prop where
  nodup : (W.slots.map Prod.fst).Nodup
  below : ∀ i e, (i, Slot.trial e) ∈ W.slots → e.ver < W.fresh ∧ e.cfg < W.fresh
  own : ∀ i e c, (i, Slot.trial e) ∈ W.slots → e.result = some c → c = e.cfg
  held : ∀ w i v c, W.status w = .evaluating i v c → v < W.fresh ∧ c < W.fresh ∧
    ∀ j e, (j, Slot.trial e) ∈ W.slots → e.ver = v → c = e.cfg

theorem Inv.step {W : World} (h : Inv W) (a : Event) : Inv (step W a) := by
  cases a with
  | launch w over sp =>
    simp only [Overwrite.step, launch]
    split
    · refine ⟨?_, ?_, ?_, ?_⟩
      · cases over
        · exact h.nodup
        · simp
      · cases over
        · exact h.below
        · simp
      · cases over
        · exact h.own
        · simp
      · intro x i v c hx
        simp only at hx
        by_cases hw : x = w
        · subst hw; rw [upd_same] at hx; exact absurd hx (by simp)
        · rw [upd_other _ _ hw] at hx
          obtain ⟨h1, h2, h3⟩ := h.held x i v c hx
          refine ⟨h1, h2, ?_⟩
          cases over
          · exact h3
          · simp
    · exact h
  | attempt w id =>
    simp only [Overwrite.step, attempt]
    split
    · split
      · refine ⟨h.nodup, h.below, h.own, ?_⟩
        intro x i v c hx
        simp only at hx
        by_cases hw : x = w
        · subst hw; rw [upd_same] at hx; exact absurd hx (by simp)
        · rw [upd_other _ _ hw] at hx; exact h.held x i v c hx
      · next hn =>
        simp only [Bool.or_eq_true, not_or] at hn
        have hk : id ∉ W.slots.map Prod.fst := by
          intro hm
          obtain ⟨p, hp, rfl⟩ := List.mem_map.mp hm
          exact hn.2 (List.any_eq_true.mpr ⟨p, hp, by simp⟩)
        refine ⟨?_, ?_, ?_, ?_⟩
        · simp only [List.map_append, List.map_cons, List.map_nil]
          rw [List.nodup_append]
          refine ⟨h.nodup, by simp, ?_⟩
          intro x hx y hy
          simp only [List.mem_singleton] at hy
          subst hy
          rintro rfl
          exact hk hx
        · intro i e hm
          simp only [List.mem_append, List.mem_singleton, Prod.mk.injEq, Slot.trial.injEq] at hm
          rcases hm with hm | ⟨-, rfl⟩
          · have := h.below i e hm; constructor <;> simp only <;> omega
          · simp
        · intro i e c hm hr
          simp only [List.mem_append, List.mem_singleton, Prod.mk.injEq, Slot.trial.injEq] at hm
          rcases hm with hm | ⟨-, rfl⟩
          · exact h.own i e c hm hr
          · simp at hr
        · intro x i v c hx
          simp only at hx
          by_cases hw : x = w
          · subst hw
            rw [upd_same] at hx
            simp only [Status.evaluating.injEq] at hx
            obtain ⟨-, rfl, rfl⟩ := hx
            refine ⟨by simp, by simp, ?_⟩
            intro j e hm he
            simp only [List.mem_append, List.mem_singleton, Prod.mk.injEq, Slot.trial.injEq] at hm
            rcases hm with hm | ⟨-, rfl⟩
            · have := (h.below j e hm).1; omega
            · rfl
          · rw [upd_other _ _ hw] at hx
            obtain ⟨h1, h2, h3⟩ := h.held x i v c hx
            refine ⟨by simp only; omega, by simp only; omega, ?_⟩
            intro j e hm he
            simp only [List.mem_append, List.mem_singleton, Prod.mk.injEq, Slot.trial.injEq] at hm
            rcases hm with hm | ⟨-, rfl⟩
            · exact h3 j e hm he
            · simp only at he; omega
    · exact h
  | finish w =>
    simp only [Overwrite.step, finish]
    split
    · next id v c hs =>
      have hst : ∀ (st : Status), (∀ i v c, st ≠ .evaluating i v c) → ∀ x i v c,
          upd W.status w st x = .evaluating i v c → W.status x = .evaluating i v c := by
        intro st hne x i v c hx
        by_cases hw : x = w
        · subst hw; rw [upd_same] at hx; exact absurd hx (hne _ _ _)
        · rwa [upd_other _ _ hw] at hx
      split
      · next hl =>
        have hk : id ∉ W.slots.map Prod.fst := by
          intro hm
          obtain ⟨⟨j, t⟩, hp, rfl⟩ := List.mem_map.mp hm
          rw [mem_lookup h.nodup hp] at hl
          exact absurd hl (by simp)
        refine ⟨?_, ?_, ?_, ?_⟩
        · simp only [List.map_append, List.map_cons, List.map_nil]
          rw [List.nodup_append]
          refine ⟨h.nodup, by simp, ?_⟩
          intro x hx y hy
          simp only [List.mem_singleton] at hy
          subst hy
          rintro rfl
          exact hk hx
        · intro i e hm
          simp only [List.mem_append, List.mem_singleton, Prod.mk.injEq, reduceCtorEq, and_false,
            or_false] at hm
          exact h.below i e hm
        · intro i e c hm
          simp only [List.mem_append, List.mem_singleton, Prod.mk.injEq, reduceCtorEq, and_false,
            or_false] at hm
          exact h.own i e c hm
        · intro x i v c hx
          obtain ⟨h1, h2, h3⟩ := h.held x i v c (hst _ (by simp) x i v c hx)
          refine ⟨h1, h2, ?_⟩
          intro j e hm
          simp only [List.mem_append, List.mem_singleton, Prod.mk.injEq, reduceCtorEq, and_false,
            or_false] at hm
          exact h3 j e hm
      · exact ⟨h.nodup, h.below, h.own, fun x i v c hx => h.held x i v c (hst _ (by simp) x i v c hx)⟩
      · next e hl =>
        split
        · next hv =>
          have hm := lookup_mem hl
          have hc : c = e.cfg := (h.held w id v c hs).2.2 id e hm hv
          refine ⟨?_, ?_, ?_, ?_⟩
          · simp only; rw [setSlot_keys]; exact h.nodup
          · intro i e' hm'
            rcases mem_setSlot hm' with h' | ⟨-, h'⟩
            · have := h.below i e' h'; constructor <;> simp only <;> omega
            · simp only [Slot.trial.injEq] at h'
              subst h'
              have := (h.below id e hm).2
              constructor <;> simp only <;> omega
          · intro i e' c' hm' hr
            rcases mem_setSlot hm' with h' | ⟨-, h'⟩
            · exact h.own i e' c' h' hr
            · simp only [Slot.trial.injEq] at h'
              subst h'
              simp only [Option.some.injEq] at hr
              rw [← hr]; exact hc
          · intro x i v' c' hx
            obtain ⟨h1, h2, h3⟩ := h.held x i v' c' (hst _ (by simp) x i v' c' hx)
            refine ⟨by simp only; omega, by simp only; omega, ?_⟩
            intro j e' hm' he
            rcases mem_setSlot hm' with h' | ⟨-, h'⟩
            · exact h3 j e' h' he
            · simp only [Slot.trial.injEq] at h'
              subst h'
              simp only at he
              omega
        · exact ⟨h.nodup, h.below, h.own,
            fun x i v c hx => h.held x i v c (hst _ (by simp) x i v c hx)⟩
    · exact h
  | kill w =>
    refine ⟨h.nodup, h.below, h.own, ?_⟩
    intro x i v c hx
    simp only [Overwrite.step] at hx
    by_cases hw : x = w
    · subst hw; rw [upd_same] at hx; exact absurd hx (by simp)
    · rw [upd_other _ _ hw] at hx; exact h.held x i v c hx

theorem inv_empty : Inv .empty := ⟨by simp [World.empty], by simp [World.empty], by simp [World.empty],
  by simp [World.empty]⟩

theorem Inv.run {W : World} (h : Inv W) (s : List Event) : Inv (run W s) := by
  induction s generalizing W with
  | nil => exact h
  | cons a s ih => exact ih (h.step a)

theorem fresh_step (W : World) (a : Event) : W.fresh ≤ (step W a).fresh := by
  cases a <;> simp only [step, launch, attempt, finish] <;> repeat' split
  all_goals simp

theorem fresh_run (W : World) (s : List Event) : W.fresh ≤ (run W s).fresh := by
  induction s generalizing W with
  | nil => exact Nat.le_refl _
  | cons a s ih => exact Nat.le_trans (fresh_step W a) (ih _)

/-- The configurations of the stored trials are not older than `n`. -/
def Young (n : Nat) (W : World) : Prop := ∀ i e, (i, Slot.trial e) ∈ W.slots → n ≤ e.cfg

theorem Young.step {n : Nat} {W : World} (h : Young n W) (hn : n ≤ W.fresh) (a : Event) :
    Young n (step W a) := by
  intro i e hm
  cases a with
  | launch w over sp =>
    simp only [Overwrite.step, launch] at hm
    split at hm
    · cases over
      · exact h i e hm
      · simp at hm
    · exact h i e hm
  | attempt w id =>
    simp only [Overwrite.step, attempt] at hm
    split at hm
    · split at hm
      · exact h i e hm
      · simp only [List.mem_append, List.mem_singleton, Prod.mk.injEq, Slot.trial.injEq] at hm
        rcases hm with hm | ⟨-, rfl⟩
        · exact h i e hm
        · exact hn
    · exact h i e hm
  | finish w =>
    simp only [Overwrite.step, finish] at hm
    split at hm
    · split at hm
      · simp only [List.mem_append, List.mem_singleton, Prod.mk.injEq, reduceCtorEq, and_false,
          or_false] at hm
        exact h i e hm
      · exact h i e hm
      · next e' hl =>
        split at hm
        · rcases mem_setSlot hm with h' | ⟨-, h'⟩
          · exact h i e h'
          · simp only [Slot.trial.injEq] at h'
            subst h'
            exact h _ e' (lookup_mem hl)
        · exact h i e hm
    · exact h i e hm
  | kill w => exact h i e hm

theorem Young.run {n : Nat} {W : World} (h : Young n W) (hn : n ≤ W.fresh) (s : List Event) :
    Young n (run W s) := by
  induction s generalizing W with
  | nil => exact h
  | cons a s ih => exact ih (h.step hn a) (Nat.le_trans hn (fresh_step W a))

/-- Some directory has no trial in it. -/
def HasBare (W : World) : Prop := ∃ i, (i, Slot.bare) ∈ W.slots

theorem HasBare.any {W : World} (h : HasBare W) : (W.slots.any fun p => p.2.isBare) = true := by
  obtain ⟨i, hi⟩ := h
  exact List.any_eq_true.mpr ⟨_, hi, rfl⟩

/-- While a directory without a trial is there, no new configuration is stored. -/
theorem blocked_step {W : World} (h : Inv W) (hb : HasBare W) (a : Event) (ha : ¬ a.Overwrites) :
    HasBare (step W a) ∧ ∀ i e, (step W a).Stored i e → ∃ e', W.Stored i e' ∧ e'.cfg = e.cfg := by
  cases a with
  | launch w over sp =>
    cases over
    · simp only [step, launch]
      split
      · exact ⟨hb, fun i e h => ⟨e, h, rfl⟩⟩
      · exact ⟨hb, fun i e h => ⟨e, h, rfl⟩⟩
    · exact absurd trivial ha
  | attempt w id =>
    simp only [step, attempt, hb.any, Bool.true_or, if_true]
    split
    · exact ⟨hb, fun i e h => ⟨e, h, rfl⟩⟩
    · exact ⟨hb, fun i e h => ⟨e, h, rfl⟩⟩
  | finish w =>
    simp only [step, finish]
    split
    · next id v c hs =>
      split
      · refine ⟨?_, ?_⟩
        · obtain ⟨i, hi⟩ := hb
          exact ⟨i, by simp [hi]⟩
        · intro i e hm
          simp only [World.Stored, List.mem_append, List.mem_singleton, Prod.mk.injEq, reduceCtorEq,
            and_false, or_false] at hm
          exact ⟨e, hm, rfl⟩
      · exact ⟨hb, fun i e h => ⟨e, h, rfl⟩⟩
      · next e hl =>
        split
        · refine ⟨?_, ?_⟩
          · obtain ⟨i, hi⟩ := hb
            by_cases hid : i = id
            · subst hid
              rw [mem_lookup h.nodup hi] at hl
              exact absurd hl (by simp)
            · rcases setSlot_mem (s := .trial { e with ver := W.fresh, result := some c }) hi with
                h | ⟨-, h⟩
              · exact absurd h.1 hid
              · exact ⟨i, h⟩
          · intro i e' hm
            rcases mem_setSlot hm with h' | ⟨rfl, h'⟩
            · exact ⟨e', h', rfl⟩
            · simp only [Slot.trial.injEq] at h'
              exact ⟨e, lookup_mem hl, by rw [h']⟩
        · exact ⟨hb, fun i e h => ⟨e, h, rfl⟩⟩
    · exact ⟨hb, fun i e h => ⟨e, h, rfl⟩⟩
  | kill w => exact ⟨hb, fun i e h => ⟨e, h, rfl⟩⟩

theorem blocked_run {W : World} (h : Inv W) (hb : HasBare W) (s : List Event) (hs : NoOverwrite s) :
    HasBare (run W s) ∧ ∀ i e, (run W s).Stored i e → ∃ e', W.Stored i e' ∧ e'.cfg = e.cfg := by
  induction s generalizing W with
  | nil => exact ⟨hb, fun i e h => ⟨e, h, rfl⟩⟩
  | cons a s ih =>
    have ha := blocked_step h hb a (hs a (by simp))
    have hr := ih (h.step a) ha.1 (fun b hm => hs b (by simp [hm]))
    refine ⟨hr.1, ?_⟩
    intro i e hm
    obtain ⟨e', h1, h2⟩ := hr.2 i e hm
    obtain ⟨e'', h3, h4⟩ := ha.2 i e' h1
    exact ⟨e'', h3, h4.trans h2⟩

/-- Every directory has a trial in it, and a worker that evaluates a trial holds its version. -/
structure Good (W : World) : Prop where
  noBare : ∀ i, (i, Slot.bare) ∉ W.slots
  there : ∀ w i v c, W.status w = .evaluating i v c → ∃ e, (i, Slot.trial e) ∈ W.slots ∧ e.ver = v
  one : ∀ w w' i v c v' c', W.status w = .evaluating i v c → W.status w' = .evaluating i v' c' → w = w'

theorem good_empty : Good .empty :=
  ⟨by simp [World.empty], by simp [World.empty], by simp [World.empty]⟩

theorem Good.quit {W : World} (h : Good W) (w : Nat) (st : Status)
    (hne : ∀ i v c, st ≠ .evaluating i v c) (f : Nat → Nat) :
    Good { W with status := upd W.status w st, space := f } := by
  have hst : ∀ x i v c, upd W.status w st x = .evaluating i v c → W.status x = .evaluating i v c := by
    intro x i v c hx
    by_cases hw : x = w
    · subst hw; rw [upd_same] at hx; exact absurd hx (hne _ _ _)
    · rwa [upd_other _ _ hw] at hx
  exact ⟨h.noBare, fun x i v c hx => h.there x i v c (hst _ _ _ _ hx),
    fun x y i v c v' c' hx hy => h.one x y i v c v' c' (hst _ _ _ _ hx) (hst _ _ _ _ hy)⟩

/-- What storing a report does when the trial is there. -/
theorem finish_good {W : World} (hi : Inv W) (h : Good W) {w i v c : Nat}
    (hs : W.status w = .evaluating i v c) : ∃ e, (i, Slot.trial e) ∈ W.slots ∧ finish W w =
      { W with
        slots := setSlot W.slots i (.trial { e with ver := W.fresh, result := some c })
        fresh := W.fresh + 1
        status := upd W.status w .idle } := by
  obtain ⟨e, hm, hv⟩ := h.there w i v c hs
  refine ⟨e, hm, ?_⟩
  unfold finish
  simp only [hs, mem_lookup hi.nodup hm, if_pos hv]

theorem Good.step {W : World} (hi : Inv W) (h : Good W) (a : Event)
    (ha : a.Overwrites → ∀ w id c, ¬ W.Evaluates w id c) : Good (step W a) := by
  cases a with
  | launch w over sp =>
    simp only [Overwrite.step, launch]
    split
    · cases over
      · exact h.quit w .idle (by simp) _
      · have hq : ∀ x i v c, upd W.status w .idle x ≠ .evaluating i v c := by
          intro x i v c hx
          by_cases hw : x = w
          · subst hw; rw [upd_same] at hx; exact absurd hx (by simp)
          · rw [upd_other _ _ hw] at hx; exact ha trivial x i c ⟨v, hx⟩
        exact ⟨by simp, fun x i v c hx => absurd hx (hq _ _ _ _),
          fun x y i v c v' c' hx => absurd hx (hq _ _ _ _)⟩
    · exact h
  | attempt w id =>
    simp only [Overwrite.step, attempt]
    split
    · split
      · exact h.quit w .raised (by simp) W.space
      · next hn =>
        simp only [Bool.or_eq_true, not_or] at hn
        have hk : ∀ t, (id, t) ∉ W.slots := by
          intro t hm
          exact hn.2 (List.any_eq_true.mpr ⟨(id, t), hm, by simp⟩)
        have hst : ∀ x i v c, upd W.status w (.evaluating id W.fresh W.fresh) x = .evaluating i v c →
            (x = w ∧ i = id ∧ v = W.fresh) ∨ (x ≠ w ∧ i ≠ id ∧ W.status x = .evaluating i v c) := by
          intro x i v c hx
          by_cases hw : x = w
          · subst hw
            rw [upd_same] at hx
            simp only [Status.evaluating.injEq] at hx
            exact Or.inl ⟨rfl, hx.1.symm, hx.2.1.symm⟩
          · rw [upd_other _ _ hw] at hx
            refine Or.inr ⟨hw, ?_, hx⟩
            rintro rfl
            obtain ⟨e, hm, -⟩ := h.there x i v c hx
            exact hk _ hm
        refine ⟨?_, ?_, ?_⟩
        · intro i hm
          simp only [List.mem_append, List.mem_singleton, Prod.mk.injEq, reduceCtorEq, and_false,
            or_false] at hm
          exact h.noBare i hm
        · intro x i v c hx
          rcases hst x i v c hx with ⟨-, rfl, rfl⟩ | ⟨-, -, hx⟩
          · exact ⟨_, by simp only [List.mem_append, List.mem_singleton]; exact Or.inr rfl, rfl⟩
          · obtain ⟨e, hm, hv⟩ := h.there x i v c hx
            exact ⟨e, by simp [hm], hv⟩
        · intro x y i v c v' c' hx hy
          rcases hst x i v c hx with ⟨hx1, hx2, -⟩ | ⟨-, hx2, hx⟩ <;>
            rcases hst y i v' c' hy with ⟨hy1, hy2, -⟩ | ⟨-, hy2, hy⟩
          · rw [hx1, hy1]
          · exact absurd hx2 hy2
          · exact absurd hy2 hx2
          · exact h.one x y i v c v' c' hx hy
    · exact h
  | finish w =>
    simp only [Overwrite.step]
    cases hs : W.status w with
    | evaluating id v c =>
      obtain ⟨e, hm, he⟩ := finish_good hi h hs
      rw [he]
      have hst : ∀ x i v' c', upd W.status w .idle x = .evaluating i v' c' →
          i ≠ id ∧ W.status x = .evaluating i v' c' := by
        intro x i v' c' hx
        by_cases hw : x = w
        · subst hw; rw [upd_same] at hx; exact absurd hx (by simp)
        · rw [upd_other _ _ hw] at hx
          refine ⟨?_, hx⟩
          rintro rfl
          exact hw (h.one x w i v' c' v c hx hs)
      refine ⟨?_, ?_, ?_⟩
      · intro i hm'
        rcases mem_setSlot hm' with h' | ⟨-, h'⟩
        · exact h.noBare i h'
        · exact absurd h' (by simp)
      · intro x i v' c' hx
        obtain ⟨hne, hx⟩ := hst x i v' c' hx
        obtain ⟨e', hm', hv'⟩ := h.there x i v' c' hx
        rcases setSlot_mem (id := id)
          (s := .trial { e with ver := W.fresh, result := some c }) hm' with h' | ⟨-, h'⟩
        · exact absurd h'.1 hne
        · exact ⟨e', h', hv'⟩
      · intro x y i v1 c1 v2 c2 hx hy
        exact h.one x y i v1 c1 v2 c2 (hst _ _ _ _ hx).2 (hst _ _ _ _ hy).2
    | off => simpa [finish, hs] using h
    | idle => simpa [finish, hs] using h
    | raised => simpa [finish, hs] using h
  | kill w => exact h.quit w .off (by simp) W.space

theorem Calm.good {s : List Event} (h : Calm s) : Good (run .empty s) := by
  suffices ∀ (t p : List Event), s = p ++ t → Good (run .empty p) → Good (run .empty s) from
    this s [] (by simp) good_empty
  intro t
  induction t with
  | nil => intro p hp hg; simp at hp; rw [hp]; exact hg
  | cons a t ih =>
    intro p hp hg
    refine ih (p ++ [a]) (by simp [hp]) ?_
    rw [run_append]
    exact hg.step (inv_empty.run p) a (fun ho => h p a t hp ho)

/-- Everybody at work, and everything stored, has the search space `sp`. -/
structure Same (sp : Nat) (W : World) : Prop where
  stored : ∀ i e, (i, Slot.trial e) ∈ W.slots → e.space = sp
  atWork : ∀ w, W.status w ≠ .off → W.status w ≠ .raised → W.space w = sp

theorem Same.quit {sp : Nat} {W : World} (h : Same sp W) (w : Nat) {st : Status}
    (hst : st = .off ∨ st = .raised) : Same sp { W with status := upd W.status w st } := by
  refine ⟨h.stored, ?_⟩
  intro x h1 h2
  simp only at h1 h2
  by_cases hw : x = w
  · subst hw
    rw [upd_same] at h1 h2
    rcases hst with h' | h'
    · exact absurd h' h1
    · exact absurd h' h2
  · rw [upd_other _ _ hw] at h1 h2
    exact h.atWork x h1 h2

theorem Same.step {sp : Nat} {W : World} (h : Same sp W) (a : Event)
    (ha : ∀ w over sp', a = .launch w over sp' → over = false ∧ sp' = sp) : Same sp (step W a) := by
  cases a with
  | launch w over sp' =>
    obtain ⟨rfl, rfl⟩ := ha w over sp' rfl
    simp only [Overwrite.step, launch]
    split
    · refine ⟨h.stored, ?_⟩
      intro x h1 h2
      simp only at h1 h2 ⊢
      by_cases hw : x = w
      · subst hw; exact upd_same _ _ _
      · rw [upd_other _ _ hw] at h1 h2 ⊢
        exact h.atWork x h1 h2
    · exact h
  | attempt w id =>
    simp only [Overwrite.step, attempt]
    split
    · next hs =>
      have hw := h.atWork w (by simp [hs]) (by simp [hs])
      split
      · exact h.quit w (Or.inr rfl)
      · refine ⟨?_, ?_⟩
        · intro i e hm
          simp only [List.mem_append, List.mem_singleton, Prod.mk.injEq, Slot.trial.injEq] at hm
          rcases hm with hm | ⟨-, rfl⟩
          · exact h.stored i e hm
          · exact hw
        · intro x h1 h2
          simp only at h1 h2 ⊢
          by_cases hx : x = w
          · subst hx; exact hw
          · rw [upd_other _ _ hx] at h1 h2
            exact h.atWork x h1 h2
    · exact h
  | finish w =>
    simp only [Overwrite.step, finish]
    split
    · next id v c hs =>
      have hw := h.atWork w (by simp [hs]) (by simp [hs])
      split
      · have hq := h.quit w (Or.inr (rfl : Status.raised = .raised))
        refine ⟨?_, hq.atWork⟩
        intro i e hm
        simp only [List.mem_append, List.mem_singleton, Prod.mk.injEq, reduceCtorEq, and_false,
          or_false] at hm
        exact h.stored i e hm
      · exact h.quit w (Or.inr rfl)
      · next e hl =>
        split
        · refine ⟨?_, ?_⟩
          · intro i e' hm
            rcases mem_setSlot hm with h' | ⟨-, h'⟩
            · exact h.stored i e' h'
            · simp only [Slot.trial.injEq] at h'
              subst h'
              exact h.stored id e (lookup_mem hl)
          · intro x h1 h2
            simp only at h1 h2 ⊢
            by_cases hx : x = w
            · subst hx; exact hw
            · rw [upd_other _ _ hx] at h1 h2
              exact h.atWork x h1 h2
        · exact h.quit w (Or.inr rfl)
    · exact h
  | kill w => exact h.quit w (Or.inl rfl)

theorem Same.run {sp : Nat} {W : World} (h : Same sp W) (s : List Event) (hs : JoinWith sp s) :
    Same sp (run W s) := by
  induction s generalizing W with
  | nil => exact h
  | cons a s ih => exact ih (h.step a (hs a (by simp))) (fun b hb => hs b (by simp [hb]))

end Neps.Overwrite
