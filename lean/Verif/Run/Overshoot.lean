import Verif.Run.Totals
import Mathlib.Algebra.Order.BigOperators.Group.List
import Mathlib.Algebra.Order.Ring.Rat
import Mathlib.Data.List.Perm.Subperm
import Mathlib.Tactic.Linarith

/-!
# What happens after the total of the costs, or of the evaluation times, has reached its limit

Both totals are sums over the reports on disk, so both are treated at once: `q` is the amount a
report contributes.
-/

namespace Neps.Run

open Neps.Store (Disk Handle)

/-- What a trial contributes if its report contributes `q`. -/
def measure (q : Report → PyFloat) (t : Trial) : PyFloat :=
  match t.report with
  | none => 0
  | some r => q r

/-- Every stored report contributes a number that is not negative. -/
def Contributes (q : Report → PyFloat) (log : List Event) : Prop :=
  ∀ p ∈ reports log, ∃ x : ℚ, 0 ≤ x ∧ q p.2 = .num x

/-- The number in a float. -/
def numOf : PyFloat → ℚ
  | .num x => x
  | _ => 0

/-- What the trial `id` contributes at present. -/
def World.amount (q : Report → PyFloat) (W : World) (id : String) : ℚ :=
  match W.stored id with
  | none => 0
  | some t => numOf (measure q t)

/-! ## The reports on disk were all logged -/

/-- A report on disk is in the log. -/
def Logged (W : World) : Prop :=
  ∀ id t r, (W.disk id).data = some t → t.report = some r → ∃ w, (w, r) ∈ reports W.log

theorem reports_append (l₁ l₂ : List Event) : reports (l₁ ++ l₂) = reports l₁ ++ reports l₂ := by
  induction l₁ with
  | nil => rfl
  | cons e l ih => cases e <;> simp [reports, ih]

theorem mem_reports_of_suffix {l l' : List Event} (h : l <:+ l') {p} (hp : p ∈ reports l) :
    p ∈ reports l' := by
  obtain ⟨x, rfl⟩ := h
  rw [reports_append]; simp [hp]

theorem Contributes.of_suffix {q l l'} (h : l <:+ l') (G : Contributes q l') : Contributes q l :=
  fun p hp => G p (mem_reports_of_suffix h hp)

/-- A stored report is old or has just been logged. -/
theorem Trans.report_origin {fs st W w W'} (C : Coh fs W) (t : Trans fs st W w W') {id : String}
    {t' : Trial} {r : Report} (ht : (W'.disk id).data = some t') (hr : t'.report = some r) :
    (∃ t₀, (W.disk id).data = some t₀ ∧ t₀.report = some r) ∨ (w, r) ∈ reports W'.log := by
  cases t with
  | idle => exact Or.inl ⟨t', ht, hr⟩
  | kill => exact Or.inl ⟨t', ht, hr⟩
  | torn s loc v n ha hpc hl hi hvn =>
    refine Or.inl ⟨t', ?_, hr⟩
    simp only [killW_disk, setDisk_disk] at ht
    by_cases e : id = s.id
    · simpa [e] using ht
    · simpa [e] using ht
  | step c _ ha s =>
    cases s with
    | idle => exact Or.inl ⟨t', ht, hr⟩
    | move pc' m => exact Or.inl ⟨t', ht, hr⟩
    | fetch id h hpc hl => exact Or.inl ⟨t', ht, hr⟩
    | create s loc hpc hs hl hi hv =>
      simp only [emit_disk, goto_disk, setDisk_disk] at ht
      by_cases e : id = s.id
      · simp only [e, if_true, Option.some.injEq] at ht
        subst ht
        simp [newTrial, Trial.new] at hr
      · exact Or.inl ⟨t', by simpa [e] using ht, hr⟩
    | claimOk id' h hpc hv =>
      simp only [emit_disk, setW_disk, setDisk_disk] at ht
      by_cases e : id = id'
      · subst e
        simp only [if_true, Option.some.injEq] at ht
        subst ht
        exact Or.inl ⟨h.cur, (C.holds w id h (by rw [hpc]; rfl)).2.2.2 hv, hr⟩
      · exact Or.inl ⟨t', by simpa [e] using ht, hr⟩
    | claimLost id h pc' n hpc hv ho => exact Or.inl ⟨t', ht, hr⟩
    | evalErr id h e hpc he => exact Or.inl ⟨t', ht, hr⟩
    | evalOk id h t r hpc he => exact Or.inl ⟨t', ht, hr⟩
    | reportOk id' h t r' hpc hv =>
      simp only [emit_disk, goto_disk, setDisk_disk] at ht
      by_cases e : id = id'
      · subst e
        simp only [if_true, Option.some.injEq] at ht
        subst ht
        simp only [Option.some.injEq] at hr
        subst hr
        exact Or.inr (by simp [reports])
      · exact Or.inl ⟨t', by simpa [e] using ht, hr⟩
    | budget t r pc' hpc ho => exact Or.inl ⟨t', ht, hr⟩
    | logErr t r e hpc => exact Or.inl ⟨t', ht, hr⟩

theorem logged_run (fs st as) : Logged (run fs st {} as) := by
  have := run_induction fs st (P := fun W => Coh fs W ∧ Logged W) (W := {})
    (fun W w W' I t => ⟨I.1.trans t, fun id t' r ht hr => by
      rcases t.report_origin I.1 ht hr with ⟨t₀, h₀, hr₀⟩ | h
      · obtain ⟨w', hw'⟩ := I.2 id t₀ r h₀ hr₀
        exact ⟨w', mem_reports_of_suffix t.log_suffix hw'⟩
      · exact ⟨w, h⟩⟩)
    ⟨Coh.init fs, by simp [Logged, Disk.empty]⟩ as
  exact this.2

/-! ## The amounts only grow -/

theorem measure_num {q W} (L : Logged W) (G : Contributes q W.log) {id t}
    (ht : (W.disk id).data = some t) : ∃ x : ℚ, 0 ≤ x ∧ measure q t = .num x := by
  unfold measure
  cases hr : t.report with
  | none => exact ⟨0, le_refl _, rfl⟩
  | some r =>
    obtain ⟨w, hw⟩ := L id t r ht hr
    exact G _ hw

theorem amount_stored {q} {W : World} {id t} (h : W.stored id = some t) :
    W.amount q id = numOf (measure q t) := by
  simp [World.amount, h]

theorem measure_amount {q W} (L : Logged W) (G : Contributes q W.log) {id t}
    (h : W.stored id = some t) : measure q t = .num (W.amount q id) := by
  obtain ⟨x, _, hx⟩ := measure_num L G (stored_eq_some.mp h).2
  rw [amount_stored h, hx]; rfl

theorem amount_nonneg {q W} (L : Logged W) (G : Contributes q W.log) (id : String) :
    0 ≤ W.amount q id := by
  cases h : W.stored id with
  | none => simp [World.amount, h]
  | some t =>
    obtain ⟨x, h0, hx⟩ := measure_num L G (stored_eq_some.mp h).2
    rw [amount_stored h, hx]; exact h0

theorem Trans.amount_mono {fs st W w W' q} (C : Coh fs W) (I : LifeInv W) (L' : Logged W')
    (G : Contributes q W'.log) (t : Trans fs st W w W') (id : String) :
    W.amount q id ≤ W'.amount q id := by
  cases h : W.stored id with
  | none =>
    have : W.amount q id = 0 := by simp [World.amount, h]
    rw [this]; exact amount_nonneg L' G id
  | some t₀ =>
    obtain ⟨⟨v, hv⟩, hd⟩ := stored_eq_some.mp h
    obtain ⟨t₁, h₁, hv₁, _, hch⟩ := (C.effect t).change C hd
    have hs₁ : W'.stored id = some t₁ :=
      stored_eq_some.mpr ⟨Option.isSome_iff_exists.mp (hv₁ (by simp [hv])), h₁⟩
    have zero : t₀.report = none → W.amount q id ≤ W'.amount q id := by
      intro hn
      rw [amount_stored h, measure, hn]
      exact amount_nonneg L' G id
    rcases hch with rfl | ⟨now, rfl, hc⟩ | ⟨hst, r, hr, _, _⟩
    · rw [amount_stored h, amount_stored hs₁]
    · rw [amount_stored h, amount_stored hs₁]; exact le_refl _
    · refine zero ?_
      rcases I id t₀ hd with ⟨_, hn⟩ | ⟨r', _, hst', _⟩
      · exact hn
      · rw [hst] at hst'
        cases hra : r'.reportedAs <;> simp [hra, ReportedAs.state] at hst'

theorem sum_trials {q W} (L : Logged W) (G : Contributes q W.log) (l : List String) :
    ((l.filterMap W.stored).map (measure q)).sum = .num (l.map (W.amount q)).sum := by
  induction l with
  | nil => rfl
  | cons id l ih =>
    cases h : W.stored id with
    | none => simp [h, ih, World.amount]
    | some t =>
      rw [List.filterMap_cons_some h, List.map_cons, List.sum_cons, ih, measure_amount L G h]
      simp

/-! ## A worker that will not start another evaluation -/

/-- Worker `w` calls the objective no more: it has ended, or has still to pass the check of the
totals, which it cannot. `f` is what the trials contribute at least. -/
def Finishing (q : Report → PyFloat) (l : ℚ) (f : String → ℚ) (W : World) (w : Nat) : Prop :=
  match (W.worker w).pc with
  | .sweep todo seen =>
    ∃ s : ℚ, (seen.map (measure q)).sum = .num s ∧ l ≤ s + (todo.map f).sum
  | .pendList | .pend _ _ | .fetch _ | .sample | .claim _ _ | .eval _ _ => False
  | _ => True

/-- The limit has been reached. -/
structure Spent (q : Report → PyFloat) (l : ℚ) (base : List String) (f : String → ℚ) (W : World) :
    Prop where
  nodup : base.Nodup
  sub : ∀ id ∈ base, id ∈ W.ids
  pos : ∀ id, 0 ≤ f id
  le : ∀ id, f id ≤ W.amount q id
  reached : l ≤ (base.map f).sum

theorem sum_le_of_subperm {f : String → ℚ} (hf : ∀ id, 0 ≤ f id) {a b : List String}
    (h : a.Subperm b) : (a.map f).sum ≤ (b.map f).sum := by
  obtain ⟨c, hc, hs⟩ := h
  rw [← (hc.map f).sum_eq]
  refine List.Sublist.sum_le_sum (hs.map f) ?_
  intro x hx
  obtain ⟨id, _, rfl⟩ := List.mem_map.mp hx
  exact hf id

theorem Finishing.trans {fs st W w w' W' q l base f} (L : Logged W)
    (G : Contributes q W.log) (S : Spent q l base f W)
    (hg : (st w).hasGlobalLimit = true)
    (hq : ∀ seen, globalCheck (st w) seen = none →
      PyFloat.ge ((seen.map (measure q)).sum) (.num l) = false)
    (I : Finishing q l f W w) (t : Trans fs st W w' W') :
    Finishing q l f W' w ∧ callsBy W'.log w = callsBy W.log w := by
  by_cases hw : w = w'
  case neg =>
    refine ⟨by unfold Finishing; rw [t.other hw]; exact I, ?_⟩
    cases t with
    | idle => rfl
    | kill => rfl
    | torn => rfl
    | step c _ ha s => cases s <;> simp [callsBy, evaluations, Ne.symm (Ne.intro hw)]
  subst hw
  cases t with
  | idle => exact ⟨I, rfl⟩
  | kill => exact ⟨by simpa [Finishing] using I, rfl⟩
  | torn s loc v n ha hpc hl hi hvn => simp [Finishing, hpc] at I
  | step c _ ha s =>
    cases s with
    | idle => exact ⟨I, rfl⟩
    | move pc' m =>
      refine ⟨?_, rfl⟩
      generalize hpc : (W.worker w).pc = pc at m
      simp only [Finishing, hpc] at I
      cases m <;> simp only [Finishing, goto_worker, if_true]
      case topPend _ _ hn => rw [hg] at hn; simp at hn
      case errPend _ hn => rw [hg] at hn; simp at hn
      case sweepList lst hperm =>
        refine ⟨0, rfl, ?_⟩
        rw [zero_add]
        refine le_trans S.reached (sum_le_of_subperm S.pos ?_)
        exact S.nodup.subperm (fun id hid => hperm.mem_iff.mpr (S.sub id hid))
      case sweepPend seen hn =>
        obtain ⟨s, hs, hle⟩ := I
        have := hq seen hn
        rw [hs, PyFloat.not_ge_num] at this
        simp at hle
        linarith
      case sweepOk id todo seen h hl =>
        obtain ⟨s, hs, hle⟩ := I
        have hst : W.stored id = some h.cur := by simp [World.stored, hl]
        refine ⟨s + W.amount q id, ?_, ?_⟩
        · rw [List.map_append, List.sum_append, hs]
          simp [measure_amount L G hst]
        · have := S.le id
          simp only [List.map_cons, List.sum_cons] at hle
          linarith
      all_goals exact I
    | fetch id h hpc hl => simp [Finishing, hpc] at I
    | create s loc hpc hs hl hi hv => simp [Finishing, hpc] at I
    | claimOk id h hpc hv => simp [Finishing, hpc] at I
    | claimLost id h pc' n hpc hv ho => simp [Finishing, hpc] at I
    | evalErr id h e hpc he => simp [Finishing, hpc] at I
    | evalOk id h t r hpc he => simp [Finishing, hpc] at I
    | reportOk id h t r hpc hv => exact ⟨by simp [Finishing], by simp [callsBy, evaluations]⟩
    | budget t r pc' hpc ho =>
      refine ⟨?_, by simp [callsBy, evaluations]⟩
      rcases ho with ⟨rfl, _⟩ | ⟨_, _, rfl⟩ <;> simp [Finishing]
    | logErr t r e hpc => exact ⟨by simp [Finishing], by simp [callsBy, evaluations]⟩

/-- A call of the objective ends the round of the worker. -/
theorem Trans.call {fs st W w w' W' q l f} (t : Trans fs st W w' W') :
    callsBy W'.log w = callsBy W.log w ∨
    callsBy W'.log w = callsBy W.log w + 1 ∧ Finishing q l f W' w := by
  by_cases hw : w = w'
  case neg =>
    left
    cases t with
    | idle => rfl
    | kill => rfl
    | torn => rfl
    | step c _ ha s => cases s <;> simp [callsBy, evaluations, Ne.symm (Ne.intro hw)]
  subst hw
  cases t with
  | idle => exact Or.inl rfl
  | kill => exact Or.inl rfl
  | torn => exact Or.inl rfl
  | step c _ ha s =>
    cases s
    case evalErr => right; exact ⟨by simp [callsBy, evaluations], by simp [Finishing]⟩
    case evalOk => right; exact ⟨by simp [callsBy, evaluations], by simp [Finishing]⟩
    all_goals exact Or.inl (by simp [callsBy, evaluations])

theorem Spent.trans {fs st W w W' q l base f} (C : Coh fs W) (I : LifeInv W) (L' : Logged W')
    (G : Contributes q W'.log) (S : Spent q l base f W)
    (t : Trans fs st W w W') : Spent q l base f W' where
  nodup := S.nodup
  sub := by
    intro id hid
    have h := S.sub id hid
    rcases C.effect t with ⟨h1⟩ | ⟨_, _, _, h1⟩ | ⟨_, _, _, _, h1⟩ | ⟨_, _, _, _, _, _, _, h1⟩ |
      ⟨_, _, _, _, _, _, _, _, _, _, _, _, h1⟩ <;> rw [h1] <;> simp [h]
  pos := S.pos
  le := fun id => le_trans (S.le id) (t.amount_mono C I L' G id)
  reached := S.reached

/-- Everything that is known after the limit was reached with `n` calls by worker `w`. -/
structure Over (fs : String → Option PyFloat) (q : Report → PyFloat) (l : ℚ) (base : List String)
    (f : String → ℚ) (w n : Nat) (W : World) : Prop where
  coh : Coh fs W
  logged : Logged W
  rest : AllPending W → Contributes q W.log → LifeInv W ∧ Spent q l base f W ∧
    (callsBy W.log w = n ∨ callsBy W.log w = n + 1 ∧ Finishing q l f W w)

theorem Over.trans {fs st W w w' W' q l base f n} (O : Over fs q l base f w n W)
    (hg : (st w).hasGlobalLimit = true)
    (hq : ∀ seen, globalCheck (st w) seen = none →
      PyFloat.ge ((seen.map (measure q)).sum) (.num l) = false)
    (t : Trans fs st W w' W') : Over fs q l base f w n W' := by
  have L' : Logged W' := by
    intro id t' r ht hr
    rcases t.report_origin O.coh ht hr with ⟨t₀, h₀, hr₀⟩ | h
    · obtain ⟨w', hw'⟩ := O.logged id t₀ r h₀ hr₀
      exact ⟨w', mem_reports_of_suffix t.log_suffix hw'⟩
    · exact ⟨w', h⟩
  refine ⟨O.coh.trans t, L', fun A' G' => ?_⟩
  have A := A'.of_suffix t.log_suffix
  have G := G'.of_suffix t.log_suffix
  obtain ⟨I, S, h⟩ := O.rest A G
  refine ⟨I.trans O.coh A' t, S.trans O.coh I L' G' t, ?_⟩
  rcases h with h | ⟨h, F⟩
  · rcases t.call (w := w) (q := q) (l := l) (f := f) with e | ⟨e, F⟩
    · left; omega
    · right; exact ⟨by omega, F⟩
  · obtain ⟨F', e⟩ := F.trans O.logged G S hg hq t
    right; exact ⟨by omega, F'⟩

/-- The total at the end of `as` is at the limit: what holds then. -/
theorem spent_run {fs st as q} {l c : ℚ} (G : Contributes q (run fs st {} as).log)
    (hc : ((run fs st {} as).trials.map (measure q)).sum = .num c) (hl : l ≤ c) :
    Spent q l (run fs st {} as).ids ((run fs st {} as).amount q) (run fs st {} as) where
  nodup := (coh_run fs st as).nodup
  sub := fun _ h => h
  pos := amount_nonneg (logged_run fs st as) G
  le := fun _ => le_refl _
  reached := by
    have := sum_trials (logged_run fs st as) G (run fs st {} as).ids
    rw [World.trials] at hc
    rw [hc] at this
    have e : c = _ := PyFloat.num.inj this
    rw [← e]; exact hl

/-- After the limit was reached at the end of `as`, worker `w` calls the objective at most once
more. -/
theorem overshoot {fs st} (as bs : List Act) (w : Nat) {q} {l c : ℚ}
    (hg : (st w).hasGlobalLimit = true)
    (hq : ∀ seen, globalCheck (st w) seen = none →
      PyFloat.ge ((seen.map (measure q)).sum) (.num l) = false)
    (A : AllPending (run fs st {} (as ++ bs))) (G : Contributes q (run fs st {} (as ++ bs)).log)
    (hc : ((run fs st {} as).trials.map (measure q)).sum = .num c) (hl : l ≤ c) :
    callsBy (run fs st {} (as ++ bs)).log w ≤ callsBy (run fs st {} as).log w + 1 := by
  rw [run_append] at A G ⊢
  have O : Over fs q l (run fs st {} as).ids ((run fs st {} as).amount q) w
      (callsBy (run fs st {} as).log w) (run fs st (run fs st {} as) bs) :=
    run_induction fs st (fun _ _ _ O t => O.trans hg hq t)
      ⟨coh_run fs st as, logged_run fs st as, fun A G =>
        ⟨lifeInv_run A, spent_run G hc hl, Or.inl rfl⟩⟩ bs
  rcases (O.rest A G).2.2 with h | ⟨h, _⟩ <;> omega

/-- A worker that has still to begin its check calls the objective no more. -/
theorem overshoot_none {fs st} (as bs : List Act) (w : Nat) {q} {l c : ℚ}
    (hg : (st w).hasGlobalLimit = true)
    (hq : ∀ seen, globalCheck (st w) seen = none →
      PyFloat.ge ((seen.map (measure q)).sum) (.num l) = false)
    (A : AllPending (run fs st {} (as ++ bs))) (G : Contributes q (run fs st {} (as ++ bs)).log)
    (hc : ((run fs st {} as).trials.map (measure q)).sum = .num c) (hl : l ≤ c)
    (hpc : ((run fs st {} as).worker w).pc.checksFirst = true) :
    callsBy (run fs st {} (as ++ bs)).log w = callsBy (run fs st {} as).log w := by
  rw [run_append] at A G ⊢
  have hfin : Finishing q l ((run fs st {} as).amount q) (run fs st {} as) w := by
    unfold Finishing
    cases h : ((run fs st {} as).worker w).pc <;> simp_all [PC.checksFirst]
  have key := run_induction fs st
    (P := fun W => Coh fs W ∧ Logged W ∧ (AllPending W → Contributes q W.log → LifeInv W ∧
      Spent q l (run fs st {} as).ids ((run fs st {} as).amount q) W ∧
      callsBy W.log w = callsBy (run fs st {} as).log w ∧
      Finishing q l ((run fs st {} as).amount q) W w)) (W := run fs st {} as)
    (fun W w' W' O t => by
      have L' : Logged W' := by
        intro id t' r ht hr
        rcases t.report_origin O.1 ht hr with ⟨t₀, h₀, hr₀⟩ | h
        · obtain ⟨w', hw'⟩ := O.2.1 id t₀ r h₀ hr₀
          exact ⟨w', mem_reports_of_suffix t.log_suffix hw'⟩
        · exact ⟨w', h⟩
      refine ⟨O.1.trans t, L', fun A' G' => ?_⟩
      have A := A'.of_suffix t.log_suffix
      have G := G'.of_suffix t.log_suffix
      obtain ⟨I, S, h, F⟩ := O.2.2 A G
      obtain ⟨F', e⟩ := F.trans O.2.1 G S hg hq t
      exact ⟨I.trans O.1 A' t, S.trans O.1 I L' G' t, by omega, F'⟩)
    ⟨coh_run fs st as, logged_run fs st as, fun A G =>
        ⟨lifeInv_run A, spent_run G hc hl, rfl, hfin⟩⟩ bs
  exact (key.2.2 A G).2.2.1

end Neps.Run
