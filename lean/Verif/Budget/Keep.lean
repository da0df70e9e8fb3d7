import Verif.Budget.Lemmas

/-!
# Histories in which everything can be stored
-/

namespace Neps.Budget

open Neps.Create (IVal)

theorem storable_iff (v : IVal) : Storable v ↔ ¬ v.HasObj := by
  rw [← IVal.stored_none_iff]
  unfold Storable
  cases v.stored <;> simp

/-- What an operation of a process that has called `neps.run` shows. -/
def shown (b : BudgetInfo) : Op → List Event
  | .launch _ _ => []
  | .ask reply =>
    .told (some b) :: match reply (some b) with
      | .raises | .unusable => [.raised]
      | .config | .configAnd _ => [.created]
  | .report cost => [.reported cost, .charged cost]

/-- What holds in addition if everything can be stored. -/
structure Good (W : World) (h : List (Nat × Op)) : Prop where
  file : W.file ≠ .empty
  handle : ∀ p, (W.handle p).isSome ↔ Launched p h

/-- One operation keeps nothing that cannot be stored. -/
def KeepableOp : Op → Prop
  | .ask reply => ∀ b keep, reply b = .configAnd keep → ¬ keep.HasObj
  | _ => True

theorem put_ok (W : World) (p : Nat) (cur s : OptState) (h : Storable s.shared) :
    ∃ W', put W p cur s = (W', true) ∧ W'.file ≠ .empty ∧
      ∀ q, (W'.handle q).isSome ↔ (q = p ∨ (W.handle q).isSome) := by
  obtain ⟨w, hw⟩ := h
  obtain ⟨f, h1, -, h2⟩ := write_ok s hw
  simp only [put, h1]
  refine ⟨_, rfl, ?_, ?_⟩
  · rintro h3
    simp only [World.give] at h3
    subst h3
    simp [read] at h2
  · intro q
    by_cases hq : q = p <;> simp [World.give, hq]

theorem launched_append (q : Nat) (h : List (Nat × Op)) (p : Nat) (op : Op) :
    Launched q (h ++ [(p, op)]) ↔ Launched q h ∨ (q = p ∧ ∃ mc me, op = .launch mc me) := by
  constructor
  · rintro ⟨mc, me, h1⟩
    simp only [List.mem_append, List.mem_cons, List.not_mem_nil, or_false, Prod.mk.injEq] at h1
    rcases h1 with h1 | ⟨h1, h2⟩
    · exact Or.inl ⟨mc, me, h1⟩
    · exact Or.inr ⟨h1, mc, me, h2.symm⟩
  · rintro (⟨mc, me, h1⟩ | ⟨h1, mc, me, h2⟩)
    · exact ⟨mc, me, by simp [h1]⟩
    · exact ⟨mc, me, by simp [h1, h2]⟩

/-- If everything can be stored, a process that has called `neps.run` can read the state. -/
theorem Inv.sync_ok {W lim log} (I : Inv W lim log) (hf : W.file ≠ .empty) {p : Nat}
    (hp : (W.handle p).isSome) : ∃ h, sync W p = some h := by
  obtain ⟨h, hp⟩ := Option.isSome_iff_exists.1 hp
  cases hv : W.ver with
  | none => simp [(I.fresh hv).2.2 p] at hp
  | some v =>
    obtain ⟨l, -, -, h1, -⟩ := I.file v hv
    rcases h1 with h1 | ⟨sh, -, h1⟩
    · exact absurd h1 hf
    · unfold sync
      simp only [hp, hv, h1]
      split <;> simp

theorem good_step {W h log} (I : Inv W (firstLimits h) log) (G : Good W h) (p : Nat) (op : Op)
    (k : KeepableOp op) :
    Good (step W p op).1 (h ++ [(p, op)]) ∧
    (∀ l, firstLimits h = some l → Launched p h → (step W p op).2 = shown (truth l log) op) ∧
    (¬ Launched p h → (step W p op).2 = []) := by
  cases op with
  | launch mc me =>
    have key : ∃ W', step W p (.launch mc me) = (W', []) ∧ W'.file ≠ .empty ∧
        ∀ q, (W'.handle q).isSome ↔ (q = p ∨ (W.handle q).isSome) := by
      simp only [step]
      cases hv : W.ver with
      | none =>
        obtain ⟨f, h1, -, h2⟩ := write_ok (launchState mc me) (v := .dict [])
          (by simp [launchState, IVal.stored, IVal.storedDict])
        simp only [open', hv, h1]
        refine ⟨_, rfl, ?_, ?_⟩
        · rintro h3
          simp only [World.give] at h3
          subst h3
          simp [read] at h2
        · intro q
          by_cases hq : q = p <;> simp [World.give, hq]
      | some v =>
        obtain ⟨l, -, -, h1, -⟩ := I.file v hv
        rcases h1 with h1 | ⟨sh, -, h1⟩
        · exact absurd h1 G.file
        · simp only [open', hv, h1]
          refine ⟨_, rfl, G.file, ?_⟩
          intro q
          by_cases hq : q = p <;> simp [World.give, hq]
    obtain ⟨W', e, h1, h2⟩ := key
    rw [e]
    refine ⟨⟨h1, ?_⟩, fun _ _ _ => rfl, fun _ => rfl⟩
    intro q
    rw [h2, G.handle, launched_append]
    simp [or_comm]
  | ask reply =>
    by_cases hp : (W.handle p).isSome
    · have hL := (G.handle p).1 hp
      obtain ⟨h1, hs⟩ := I.sync_ok G.file hp
      obtain ⟨l, v, e1, e2, e3, e4, ks⟩ := I.synced hs
      have key : ∃ W', step W p (.ask reply) = (W', shown (truth l log) (.ask reply)) ∧
          W'.file ≠ .empty ∧ ∀ q, (W'.handle q).isSome ↔ (q = p ∨ (W.handle q).isSome) := by
        obtain ⟨h0, hp⟩ := Option.isSome_iff_exists.1 hp
        simp only [step, hp, hs, e4, shown]
        have kf : (W.give p h1).file ≠ .empty ∧
            ∀ q, ((W.give p h1).handle q).isSome ↔ (q = p ∨ (W.handle q).isSome) :=
          ⟨G.file, fun q => by by_cases hq : q = p <;> simp [World.give, hq]⟩
        cases hr : reply (some (truth l log)) with
        | raises => exact ⟨_, rfl, kf⟩
        | unusable => exact ⟨_, rfl, kf⟩
        | config =>
          obtain ⟨W', a1, a2⟩ := put_ok W p h1.cur ⟨some (truth l log), h1.cur.shared⟩ ks
          simp only [a1]
          exact ⟨_, rfl, a2⟩
        | configAnd keep =>
          obtain ⟨W', a1, a2⟩ := put_ok W p h1.cur ⟨some (truth l log), keep⟩
            ((storable_iff _).2 (k _ _ hr))
          simp only [a1]
          exact ⟨_, rfl, a2⟩
      obtain ⟨W', e, a1, a2⟩ := key
      rw [e]
      refine ⟨⟨a1, ?_⟩, ?_, fun hn => absurd hL hn⟩
      · intro q
        rw [a2, G.handle, launched_append]
        constructor
        · rintro (rfl | h)
          · exact Or.inl hL
          · exact Or.inl h
        · rintro (h | ⟨-, _, _, h⟩)
          · exact Or.inr h
          · simp at h
      · intro l' hl' _
        rw [e2] at hl'
        obtain rfl := Option.some.inj hl'
        rfl
    · have hn : ¬ Launched p h := fun hL => hp ((G.handle p).2 hL)
      have hp : W.handle p = none := by simpa using hp
      have e : step W p (.ask reply) = (W, []) := by simp [step, hp]
      rw [e]
      refine ⟨⟨G.file, ?_⟩, fun _ _ hL => absurd hL hn, fun _ => rfl⟩
      intro q
      rw [G.handle, launched_append]
      simp
  | report cost =>
    by_cases hp : (W.handle p).isSome
    · have hL := (G.handle p).1 hp
      obtain ⟨h1, hs⟩ := I.sync_ok G.file hp
      obtain ⟨l, v, e1, e2, e3, e4, ks⟩ := I.synced hs
      have ks' : Storable (addCost h1.cur cost).shared := by
        rcases cost with _ | c <;> simpa [addCost, e4] using ks
      obtain ⟨h0, hp⟩ := Option.isSome_iff_exists.1 hp
      obtain ⟨W', a1, a2, a3⟩ := put_ok W p (addCost h1.cur cost) (addCost h1.cur cost) ks'
      have e : step W p (.report cost) = (W', [.reported cost, .charged cost]) := by
        simp [step, hp, hs, a1]
      rw [e]
      refine ⟨⟨a2, ?_⟩, fun _ _ _ => rfl, fun hn => absurd hL hn⟩
      intro q
      rw [a3, G.handle, launched_append]
      constructor
      · rintro (rfl | h)
        · exact Or.inl hL
        · exact Or.inl h
      · rintro (h | ⟨-, _, _, h⟩)
        · exact Or.inr h
        · simp at h
    · have hn : ¬ Launched p h := fun hL => hp ((G.handle p).2 hL)
      have hp : W.handle p = none := by simpa using hp
      have e : step W p (.report cost) = (W, []) := by simp [step, hp]
      rw [e]
      refine ⟨⟨G.file, ?_⟩, fun _ _ hL => absurd hL hn, fun _ => rfl⟩
      intro q
      rw [G.handle, launched_append]
      simp

theorem Keepable.split {h : List (Nat × Op)} {p : Nat} {op : Op}
    (k : Keepable (h ++ [(p, op)])) : Keepable h ∧ KeepableOp op := by
  constructor
  · intro q reply hq
    exact k q reply (by simp [hq])
  · cases op with
    | ask reply => exact k p reply (by simp)
    | launch _ _ => trivial
    | report _ => trivial

theorem good_run (h : List (Nat × Op)) (k : Keepable h) : Good (run {} h).1 h := by
  induction h using List.reverseRecOn with
  | nil => exact ⟨by simp [run], by simp [run, Launched]⟩
  | append_singleton h x ih =>
    obtain ⟨p, op⟩ := x
    obtain ⟨k1, k2⟩ := k.split
    rw [run_append]
    exact (good_step (inv_run h) (ih k1) p op k2).1

/-- Whoever has called `neps.run` has limits. -/
theorem launched_limits {h : List (Nat × Op)} {p : Nat} (hL : Launched p h) :
    ∃ l, firstLimits h = some l := by
  obtain ⟨mc, me, hm⟩ := hL
  induction h with
  | nil => simp at hm
  | cons x h ih =>
    rcases x with ⟨q, _ | _ | _⟩
    · simp [firstLimits]
    all_goals
      simp only [List.mem_cons, Prod.mk.injEq, reduceCtorEq, and_false, false_or] at hm
      simpa [firstLimits] using ih hm

/-- The last operation of a history. -/
theorem last_shown (h : List (Nat × Op)) (p : Nat) (op : Op) (k : Keepable (h ++ [(p, op)]))
    (hL : Launched p h) : ∃ l, firstLimits h = some l ∧
      (step (run {} h).1 p op).2 = shown (truth l (run {} h).2) op := by
  obtain ⟨l, hl⟩ := launched_limits hL
  obtain ⟨k1, k2⟩ := k.split
  exact ⟨l, hl, (good_step (inv_run h) (good_run h k1) p op k2).2.1 l hl hL⟩

theorem last_not_launched (h : List (Nat × Op)) (p : Nat) (op : Op)
    (k : Keepable (h ++ [(p, op)])) (hL : ¬ Launched p h) : (step (run {} h).1 p op).2 = [] := by
  obtain ⟨k1, k2⟩ := k.split
  exact (good_step (inv_run h) (good_run h k1) p op k2).2.2 hL

theorem launched_forget (p : Nat) (h : List (Nat × Op)) : Launched p (forget h) ↔ Launched p h := by
  unfold Launched forget
  refine exists_congr fun mc => exists_congr fun me => ?_
  simp only [List.mem_map, Prod.mk.injEq, Prod.exists]
  constructor
  · rintro ⟨q, op, h1, rfl, h2⟩
    cases op <;> simp_all [Op.forget]
  · intro h1
    exact ⟨p, _, h1, rfl, rfl⟩

theorem firstLimits_forget (h : List (Nat × Op)) : firstLimits (forget h) = firstLimits h := by
  induction h with
  | nil => rfl
  | cons x h ih =>
    rcases x with ⟨q, _ | _ | _⟩
    · simp [forget, Op.forget, firstLimits]
    · simpa [forget, Op.forget, firstLimits] using ih
    · simpa [forget, Op.forget, firstLimits] using ih

theorem keepable_forget (h : List (Nat × Op)) : Keepable (forget h) := by
  intro p reply hm b keep hr
  simp only [forget, List.mem_map, Prod.mk.injEq, Prod.exists] at hm
  obtain ⟨q, op, -, rfl, h2⟩ := hm
  cases op with
  | ask r =>
    simp only [Op.forget, Op.ask.injEq] at h2
    subst h2
    simp only [Reply.forget] at hr
    split at hr <;> simp_all
  | launch _ _ => simp [Op.forget] at h2
  | report _ => simp [Op.forget] at h2

end Neps.Budget
