import Verif.PriorBand.WeightProps
import Verif.MF.Async
import Verif.MF.Best
import Verif.MF.History
import Verif.MF.Witness
import Mathlib.Tactic.Set
import Mathlib.Algebra.BigOperators.Intervals
import Mathlib.Algebra.Order.BigOperators.Group.List
import Mathlib.Algebra.Order.BigOperators.Group.Finset

/-!
# When PriorBand samples around the incumbent (C82)
-/

namespace Verif.PriorBand

open Neps Neps.MF

variable {P F : Type}

/-! ## Lemmas -/

theorem foldl_add_sum (f : ℕ → ℝ) (l : List ℕ) (a : ℝ) :
    l.foldl (fun acc r => acc + f r) a = a + (l.map f).sum := by
  induction l generalizing a with
  | nil => simp
  | cons x l ih => simp [ih, add_assoc]

theorem sum_range'_Ioc (f : ℕ → ℝ) (m n : ℕ) :
    ((List.range' (m + 1) n).map f).sum = ∑ r ∈ Finset.Ioc m (m + n), f r := by
  induction n with
  | zero => simp
  | succ n ih =>
    rw [List.range'_concat, List.map_append, List.sum_append, ih, ← add_assoc m n 1,
      Finset.sum_Ioc_succ_top (by omega)]
    simp [show m + 1 + n = m + n + 1 by omega]

theorem bracketResources_eq (b : Bracket ℝ) (h : b.minR ≤ b.maxR) :
    bracketResources b = BracketCost b := by
  unfold bracketResources BracketCost
  rw [foldl_add_sum]
  obtain ⟨n, hn⟩ : ∃ n, b.maxR = b.minR + n := ⟨b.maxR - b.minR, by omega⟩
  have : numRungs b = n + 1 := by unfold numRungs; omega
  rw [this, List.range'_succ, List.tail_cons, sum_range'_Ioc, hn]

theorem counts_row {st : Settings} {budget : ℕ → F} {H H' : List (Rec P F)} {T : Table P F}
    (hI : Inv budget H) (hp : H'.Perm H) (ho : observe st H' = .ok T) :
    (finishedRungs T.rows).Perm ((H.filter fun t => decide (Counts st H t)).map (·.key.rung)) := by
  set st' : Settings := { st with defaultFirst := false } with hst
  have hd : ∀ rows : List (Row P F), dropDefault st' rows = rows := by
    intro rows; simp [dropDefault, hst]
  have hgl : ∀ r, getLoss st' r = getLoss st r := by intro r; rfl
  have hlo : ∀ t : Rec P F, lossOf st' t = lossOf st t := by intro t; rfl
  have hload : ∀ (ts : List (Rec P F)) (T : Table P F), load st' T ts = load st T ts := by
    intro ts
    induction ts with
    | nil => intro T; rfl
    | cons t ts ih => intro T; simp only [load, hgl, ih]
  have ho' : observe st' H' = .ok T := by
    rw [← ho]; simp only [observe, hload]
  have hcand : ∀ t r, Candidate st' H r t ↔ (t.key.rung = r ∧ Counts st H t) := by
    intro t r
    unfold Candidate Counts
    have : st'.offset = 0 := by simp [Settings.offset, hst]
    rw [this, hlo]
    constructor
    · rintro ⟨rfl, h1, h2, h3, _⟩; exact ⟨rfl, h1, h2, h3⟩
    · rintro ⟨rfl, h1, h2, h3⟩; exact ⟨rfl, h1, h2, h3, Nat.zero_le _⟩
  rw [List.perm_iff_count]
  intro r
  have h := candidates_length hI hp ho' r
  rw [hd] at h
  have e1 : List.count r (finishedRungs T.rows) = (atRung (dropna T.rows) r).length := by
    unfold finishedRungs atRung
    rw [List.count, List.countP_map, List.countP_eq_length_filter]
    rfl
  have e2 : List.count r ((H.filter fun t => decide (Counts st H t)).map (·.key.rung)) =
      (H.filter fun t => decide (Candidate st' H r t)).length := by
    rw [List.count, List.countP_map, List.countP_eq_length_filter, List.filter_filter]
    congr 1
    apply List.filter_congr
    intro t _
    simp only [Function.comp]
    rw [Bool.eq_iff_iff, Bool.and_eq_true, beq_iff_eq, decide_eq_true_iff, decide_eq_true_iff, hcand]
  rw [e1, e2, h]

theorem viewOf_ok {wt : WeightType} {is : IncStyle} {self : Bracket ℝ} {mb : ℝ} {sort : Argsort}
    {score : ℕ → ℝ × ℝ} {st : Settings} {ts : List (Rec P F)} {v : View}
    (h : viewOf wt is self mb sort score st ts = .ok v) :
    ∃ T, observe st ts = .ok T ∧
      v = ⟨wt, is, self, mb, sort, score, history st ts, finishedRungs T.rows⟩ := by
  unfold viewOf at h
  split at h
  · simp at h
  · rename_i T hT
    simp only [Except.ok.injEq] at h
    exact ⟨T, hT, h.symm⟩

theorem history_ne_nil {st : Settings} {H H' : List (Rec P F)} (hp : H'.Perm H) (r : ℕ) :
    history st H' r ≠ [] ↔ ∃ t ∈ H, t.res ≠ .pending ∧ t.key.rung = r := by
  unfold history
  rw [ne_eq, List.map_eq_nil_iff, List.filter_eq_nil_iff]
  simp only [Bool.and_eq_true, Bool.not_eq_true', beq_iff_eq, not_and, not_forall,
    Rec.isPending, beq_eq_false_iff_ne, ne_eq, not_not, exists_prop]
  constructor
  · rintro ⟨t, ht, h1, h2⟩; exact ⟨t, hp.mem_iff.mp ht, h1, h2⟩
  · rintro ⟨t, ht, h1, h2⟩; exact ⟨t, hp.mem_iff.mpr ht, h1, h2⟩

/-! ## C82 -/

/-- **C82**: incumbent sampling is active exactly if some evaluation at the highest rung is finished
and the configurations whose latest evaluation is finished have used, counting each at the budget
of that evaluation, at least what one bracket costs. -/
theorem C82_active_iff {budget : ℕ → F} {H H' : List (Rec P F)} (hI : Inv budget H)
    (hp : H'.Perm H) (wt : WeightType) (is : IncStyle) (self first : Bracket ℝ)
    (hf : first.minR ≤ first.maxR) (mb : ℝ) (sort : Argsort) (score : ℕ → ℝ × ℝ) (st : Settings)
    (v : View) (hv : viewOf wt is self mb sort score st H' = .ok v) :
    activateInc first v ↔
      BracketCost first ≤
        ((H.filter fun t => decide (Counts st H t)).map fun t => self.budget t.key.rung).sum ∧
      ∃ t ∈ H, t.res ≠ .pending ∧ t.key.rung = self.maxR := by
  obtain ⟨T, hT, rfl⟩ := viewOf_ok hv
  unfold activateInc
  simp only
  rw [bracketResources_eq first hf, history_ne_nil hp, resourcesUsed,
    ((counts_row hI hp hT).map self.budget).sum_eq, List.map_map]
  rfl

theorem telescoping (f : ℕ → ℝ) (m ρ : ℕ) (h : m ≤ ρ) :
    f ρ = f m + ∑ r ∈ Finset.Ioc m ρ, (f r - f (r - 1)) := by
  induction ρ, h using Nat.le_induction with
  | base => simp
  | succ n hn ih =>
    rw [Finset.sum_Ioc_succ_top (by omega), Nat.add_sub_cancel]
    linarith

/-- The resources of a list of evaluations, counted rung by rung. -/
theorem sum_budget (f : ℕ → ℝ) (m M : ℕ) (l : List ℕ) (h : ∀ ρ ∈ l, m ≤ ρ ∧ ρ ≤ M) :
    (l.map f).sum = (l.length : ℝ) * f m +
      ∑ r ∈ Finset.Ioc m M, ((l.countP fun ρ => decide (r ≤ ρ) : ℕ) : ℝ) * (f r - f (r - 1)) := by
  induction l with
  | nil => simp
  | cons ρ l ih =>
    obtain ⟨h1, h2⟩ := h ρ (by simp)
    rw [List.map_cons, List.sum_cons, ih fun x hx => h x (by simp [hx]), telescoping f m ρ h1]
    have e : ∑ r ∈ Finset.Ioc m ρ, (f r - f (r - 1)) =
        ∑ r ∈ Finset.Ioc m M, (if r ≤ ρ then (f r - f (r - 1)) else 0) := by
      rw [← Finset.sum_filter]
      apply Finset.sum_congr _ (fun _ _ => rfl)
      ext r
      simp only [Finset.mem_Ioc, Finset.mem_filter]
      omega
    have e2 : ∑ r ∈ Finset.Ioc m M,
        (((ρ :: l).countP fun ρ => decide (r ≤ ρ) : ℕ) : ℝ) * (f r - f (r - 1)) =
        ∑ r ∈ Finset.Ioc m M, (if r ≤ ρ then (f r - f (r - 1)) else 0) +
        ∑ r ∈ Finset.Ioc m M, ((l.countP fun ρ => decide (r ≤ ρ) : ℕ) : ℝ) * (f r - f (r - 1)) := by
      rw [← Finset.sum_add_distrib]
      apply Finset.sum_congr rfl
      intro r _
      rw [List.countP_cons]
      by_cases hr : r ≤ ρ
      · simp only [hr, decide_true, if_true]; push_cast; ring
      · simp [hr]
    rw [e, e2, List.length_cons]
    push_cast
    ring

/-- **C82**: once, for every rung, as many configurations as the bracket has there have been
evaluated up to that rung and are not being evaluated further, incumbent sampling is active. -/
theorem C82_activates {budget : ℕ → F} {H H' : List (Rec P F)} (hI : Inv budget H)
    (hp : H'.Perm H) (wt : WeightType) (is : IncStyle) (b : Bracket ℝ) (hle : b.minR ≤ b.maxR)
    (hb0 : 0 ≤ b.budget b.minR)
    (hbm : ∀ r, b.minR < r → r ≤ b.maxR → b.budget (r - 1) ≤ b.budget r)
    (hcap : 0 < b.cap b.maxR) (mb : ℝ) (sort : Argsort) (score : ℕ → ℝ × ℝ) (st : Settings)
    (v : View) (hv : viewOf wt is b mb sort score st H' = .ok v)
    (hr : ∀ t ∈ H, b.minR ≤ t.key.rung ∧ t.key.rung ≤ b.maxR)
    (hdone : ∀ r, b.minR ≤ r → r ≤ b.maxR →
      b.cap r ≤ (H.filter fun t => decide (Counts st H t ∧ r ≤ t.key.rung)).length) :
    activateInc b v := by
  rw [C82_active_iff hI hp wt is b b hle mb sort score st v hv]
  constructor
  · have hm : (H.filter fun t => decide (Counts st H t)).map (fun t => b.budget t.key.rung) =
        ((H.filter fun t => decide (Counts st H t)).map (·.key.rung)).map b.budget := by
      rw [List.map_map]; rfl
    rw [hm, sum_budget b.budget b.minR b.maxR _ (by
      intro ρ hρ
      obtain ⟨t, ht, rfl⟩ := List.mem_map.mp hρ
      exact hr t (List.mem_filter.mp ht).1)]
    have hc : ∀ r, ((H.filter fun t => decide (Counts st H t)).map (·.key.rung)).countP
        (fun ρ => decide (r ≤ ρ)) =
        (H.filter fun t => decide (Counts st H t ∧ r ≤ t.key.rung)).length := by
      intro r
      rw [List.countP_map, List.countP_eq_length_filter, List.filter_filter]
      congr 1
      apply List.filter_congr
      intro t _
      simp only [Function.comp]
      rw [Bool.eq_iff_iff, Bool.and_eq_true, decide_eq_true_iff, decide_eq_true_iff,
        decide_eq_true_iff]
      tauto
    have hl : ((H.filter fun t => decide (Counts st H t)).map (·.key.rung)).length =
        (H.filter fun t => decide (Counts st H t ∧ b.minR ≤ t.key.rung)).length := by
      rw [List.length_map]
      congr 1
      apply List.filter_congr
      intro t ht
      rw [Bool.eq_iff_iff, decide_eq_true_iff, decide_eq_true_iff]
      have := (hr t ht).1
      tauto
    unfold BracketCost
    rw [hl]
    apply add_le_add
    · exact mul_le_mul_of_nonneg_right (by exact_mod_cast hdone b.minR (le_refl _) hle) hb0
    · apply Finset.sum_le_sum
      intro r hrm
      rw [Finset.mem_Ioc] at hrm
      rw [hc r]
      exact mul_le_mul_of_nonneg_right (by exact_mod_cast hdone r (by omega) hrm.2)
        (by linarith [hbm r hrm.1 hrm.2])
  · have := hdone b.maxR hle (le_refl _)
    have hne : (H.filter fun t => decide (Counts st H t ∧ b.maxR ≤ t.key.rung)) ≠ [] := by
      intro h0; rw [h0] at this; simp at this; omega
    obtain ⟨t, ht⟩ := List.exists_mem_of_ne_nil _ hne
    rw [List.mem_filter, decide_eq_true_iff] at ht
    exact ⟨t, ht.1, ht.2.1.2.1, le_antisymm (hr t ht.1).2 ht.2.2⟩

/-- **C82 for one bracket of hyperband**: once the bracket that starts with configuration `start`
has all its evaluations and every evaluation of it is finished with a loss that is a number,
incumbent sampling is active. -/
theorem C82_bracket_done {budget : ℕ → F} {H H' : List (Rec P F)} (hI : Inv budget H)
    (hp : H'.Perm H) (wt : WeightType) (is : IncStyle) (b : Bracket ℝ) (hle : b.minR ≤ b.maxR)
    (hb0 : 0 ≤ b.budget b.minR)
    (hbm : ∀ r, b.minR < r → r ≤ b.maxR → b.budget (r - 1) ≤ b.budget r)
    (hcap : 0 < b.cap b.maxR) (mb : ℝ) (sort : Argsort) (score : ℕ → ℝ × ℝ) (st : Settings)
    (v : View) (hv : viewOf wt is b mb sort score st H' = .ok v)
    (hr : ∀ t ∈ H, b.minR ≤ t.key.rung ∧ t.key.rung ≤ b.maxR) (start : ℕ)
    (hdone : ∀ r, b.minR ≤ r → r ≤ b.maxR → evaluatedAt H start b.size r = b.cap r)
    (hfin : ∀ t ∈ H, InSlice start b.size t → t.res ≠ .pending ∧ lossOf st t ≠ some .nan) :
    activateInc b v := by
  refine C82_activates hI hp wt is b hle hb0 hbm hcap mb sort score st v hv hr ?_
  intro r h1 h2
  rw [← hdone r h1 h2]
  unfold evaluatedAt
  rw [List.countP_eq_length_filter]
  -- each configuration of the slice with a trial at `r` has a trial that counts
  have hsub : (List.range' start b.size).filter
      (fun c => decide ((⟨c, r⟩ : Key) ∈ H.map (·.key))) ⊆
      (H.filter fun t => decide (Counts st H t ∧ r ≤ t.key.rung)).map (·.key.cfg) := by
    intro c hc
    rw [List.mem_filter, decide_eq_true_iff, List.mem_range'_1] at hc
    obtain ⟨⟨hc1, hc2⟩, hmem⟩ := hc
    obtain ⟨t₀, ht₀, hk₀⟩ := List.mem_map.mp hmem
    -- the trial of the configuration at the highest rung
    have hex : ∃ t ∈ H, t.key.cfg = c ∧ ∀ t' ∈ H, t'.key.cfg = c → t'.key.rung ≤ t.key.rung := by
      have key : ∀ n : ℕ, (∀ t' ∈ H, t'.key.cfg = c → t'.key.rung ≤ n) →
          ∃ t ∈ H, t.key.cfg = c ∧ ∀ t' ∈ H, t'.key.cfg = c → t'.key.rung ≤ t.key.rung := by
        intro n
        induction n with
        | zero =>
          intro hn
          exact ⟨t₀, ht₀, by rw [hk₀], fun t' ht' hc' => (hn t' ht' hc').trans (Nat.zero_le _)⟩
        | succ n ih =>
          intro hn
          by_cases hx : ∃ t ∈ H, t.key.cfg = c ∧ t.key.rung = n + 1
          · obtain ⟨t, ht, htc, htr⟩ := hx
            exact ⟨t, ht, htc, fun t' ht' hc' => by rw [htr]; exact hn t' ht' hc'⟩
          · apply ih
            intro t' ht' hc'
            have := hn t' ht' hc'
            have hne : t'.key.rung ≠ n + 1 := fun h => hx ⟨t', ht', hc', h⟩
            omega
      exact key b.maxR fun t' ht' _ => (hr t' ht').2
    obtain ⟨t, ht, htc, htop⟩ := hex
    have hs := hfin t ht ⟨by omega, by omega⟩
    have hge : r ≤ t.key.rung := by
      have := htop t₀ ht₀ (by rw [hk₀])
      rw [hk₀] at this
      exact this
    rw [List.mem_map]
    exact ⟨t, by
      rw [List.mem_filter, decide_eq_true_iff]
      exact ⟨ht, ⟨⟨fun t' ht' hc' => htop t' ht' (by rw [hc', htc]), hs⟩, hge⟩⟩, htc⟩
  have hnd : ((List.range' start b.size).filter
      (fun c => decide ((⟨c, r⟩ : Key) ∈ H.map (·.key)))).Nodup :=
    (List.nodup_range' (step := 1)).filter _
  have := (hnd.subperm hsub).length_le
  rwa [List.length_map] at this

/-! ### The incumbent -/

theorem nanargminGo_spec (xs : List PyFloat) : ∀ (i : ℕ) (best : Option (ℕ × PyFloat)),
    (∀ b, best = some b → b.2.isNan = false) →
    (nanargminGo xs i best = none ↔ best = none ∧ ∀ x ∈ xs, x.isNan = true) ∧
    ∀ j y, nanargminGo xs i best = some (j, y) → y.isNan = false ∧
      (best = some (j, y) ∨ (i ≤ j ∧ xs[j - i]? = some y)) ∧
      (∀ b, best = some b → PyFloat.le y b.2 = true) ∧
      (∀ x ∈ xs, x.isNan = false → PyFloat.le y x = true) := by
  have hrefl : ∀ y : PyFloat, y.isNan = false → PyFloat.le y y = true := by
    intro y hy; cases y <;> simp_all [PyFloat.isNan, PyFloat.le]
  have hlt : ∀ a b : PyFloat, PyFloat.lt a b = true → PyFloat.le a b = true := by
    intro a b h
    cases a <;> cases b <;> simp_all [PyFloat.lt, PyFloat.le, le_of_lt]
  have hnlt : ∀ a b : PyFloat, a.isNan = false → b.isNan = false → PyFloat.lt a b = false →
      PyFloat.le b a = true := by
    intro a b h1 h2 h3
    cases a <;> cases b <;> simp_all [PyFloat.lt, PyFloat.le, PyFloat.isNan]
  induction xs with
  | nil =>
    intro i best hb
    refine ⟨by simp [nanargminGo], ?_⟩
    intro j y h
    simp only [nanargminGo] at h
    subst h
    exact ⟨hb _ rfl, Or.inl rfl, fun b hb' => by
      simp only [Option.some.injEq] at hb'; subst hb'; exact hrefl _ (hb _ rfl), by simp⟩
  | cons x xs ih =>
    intro i best hb
    simp only [nanargminGo]
    by_cases hx : x.isNan = true
    · rw [if_pos hx]
      obtain ⟨h1, h2⟩ := ih (i + 1) best hb
      refine ⟨by rw [h1]; simp [hx], ?_⟩
      intro j y h
      obtain ⟨a1, a2, a3, a4⟩ := h2 j y h
      refine ⟨a1, ?_, a3, ?_⟩
      · rcases a2 with a2 | ⟨a2, a5⟩
        · exact Or.inl a2
        · refine Or.inr ⟨by omega, ?_⟩
          rw [show j - i = (j - (i + 1)) + 1 by omega]
          simpa using a5
      · intro z hz hzn
        rcases List.mem_cons.mp hz with rfl | hz
        · simp [hx] at hzn
        · exact a4 z hz hzn
    · have hxf : x.isNan = false := by simpa using hx
      rw [if_neg hx]
      cases best with
      | none =>
        simp only
        obtain ⟨h1, h2⟩ := ih (i + 1) (some (i, x)) (by
          intro b hb'; simp only [Option.some.injEq] at hb'; subst hb'; exact hxf)
        refine ⟨by rw [h1]; simp [hx], ?_⟩
        intro j y h
        obtain ⟨a1, a2, a3, a4⟩ := h2 j y h
        refine ⟨a1, Or.inr ?_, by simp, ?_⟩
        · rcases a2 with a2 | ⟨a2, a5⟩
          · simp only [Option.some.injEq, Prod.mk.injEq] at a2
            obtain ⟨rfl, rfl⟩ := a2
            simp
          · refine ⟨by omega, ?_⟩
            rw [show j - i = (j - (i + 1)) + 1 by omega]
            simpa using a5
        · intro z hz hzn
          rcases List.mem_cons.mp hz with rfl | hz
          · exact a3 _ rfl
          · exact a4 z hz hzn
      | some b =>
        simp only
        have hbn := hb b rfl
        by_cases hl : PyFloat.lt x b.2 = true
        · rw [if_pos hl]
          obtain ⟨h1, h2⟩ := ih (i + 1) (some (i, x)) (by
            intro b hb'; simp only [Option.some.injEq] at hb'; subst hb'; exact hxf)
          refine ⟨by rw [h1]; simp, ?_⟩
          intro j y h
          obtain ⟨a1, a2, a3, a4⟩ := h2 j y h
          have hyx := a3 _ rfl
          refine ⟨a1, Or.inr ?_, ?_, ?_⟩
          · rcases a2 with a2 | ⟨a2, a5⟩
            · simp only [Option.some.injEq, Prod.mk.injEq] at a2
              obtain ⟨rfl, rfl⟩ := a2
              simp
            · refine ⟨by omega, ?_⟩
              rw [show j - i = (j - (i + 1)) + 1 by omega]
              simpa using a5
          · intro b' hb'
            simp only [Option.some.injEq] at hb'
            subst hb'
            exact Neps.MF.le_trans' hyx (hlt _ _ hl)
          · intro z hz hzn
            rcases List.mem_cons.mp hz with rfl | hz
            · exact hyx
            · exact a4 z hz hzn
        · rw [if_neg hl]
          obtain ⟨h1, h2⟩ := ih (i + 1) (some b) hb
          refine ⟨by rw [h1]; simp, ?_⟩
          intro j y h
          obtain ⟨a1, a2, a3, a4⟩ := h2 j y h
          refine ⟨a1, ?_, a3, ?_⟩
          · rcases a2 with a2 | ⟨a2, a5⟩
            · exact Or.inl a2
            · refine Or.inr ⟨by omega, ?_⟩
              rw [show j - i = (j - (i + 1)) + 1 by omega]
              simpa using a5
          · intro z hz hzn
            rcases List.mem_cons.mp hz with rfl | hz
            · exact Neps.MF.le_trans' (a3 _ rfl) (hnlt _ _ hxf hbn (by simpa using hl))
            · exact a4 z hz hzn

/-- **C82, the incumbent**: the incumbent has a finite place among the configurations seen: its loss
is a number, and no configuration has a smaller one.  Each configuration counts with its latest
evaluation, whatever the rung. -/
theorem C82_incumbent (rows : List (Row P F)) (r : Row P F) (h : findIncumbent rows = .ok r) :
    r ∈ rows ∧ r.float.isNan = false ∧
      ∀ r' ∈ rows, r'.float.isNan = false → PyFloat.le r.float r'.float = true := by
  unfold findIncumbent at h
  split_ifs at h with he
  split at h
  · simp at h
  · rename_i i y hi
    obtain ⟨_, h2⟩ := nanargminGo_spec (floats rows) 0 none (by simp)
    obtain ⟨a1, a2, _, a4⟩ := h2 i y hi
    split at h
    · rename_i r₀ hr₀
      simp only [Except.ok.injEq] at h
      subst h
      have hy : r₀.float = y := by
        rcases a2 with a2 | ⟨_, a5⟩
        · simp at a2
        · simpa [floats, hr₀] using a5
      rw [hy]
      exact ⟨List.mem_of_getElem? hr₀, a1, fun r' hr' hn => a4 _ (List.mem_map.mpr ⟨r', hr', rfl⟩) hn⟩
    · simp at h

/-- **C82, the incumbent**: when incumbent sampling is active and no failed evaluation is recorded
as `"error"`, there is an incumbent. -/
theorem C82_incumbent_exists (first : Bracket ℝ) (hpos : 0 < bracketResources first)
    (v : View) (rows : List (Row P F)) (hv : v.rungs = finishedRungs rows)
    (herr : hasError rows = false) (ha : activateInc first v) :
    ∃ r, findIncumbent rows = .ok r := by
  have hne : dropna rows ≠ [] := by
    intro h0
    have h1 := ha.1
    rw [hv] at h1
    simp [resourcesUsed, finishedRungs, h0] at h1
    linarith
  obtain ⟨x, hx⟩ := List.exists_mem_of_ne_nil _ hne
  rw [mem_dropna] at hx
  have hxe : x.perf ≠ .error := by
    intro h
    have : hasError rows = true := by
      simp only [hasError, List.any_eq_true]
      exact ⟨x, hx.1, by simp [h]⟩
    simp [herr] at this
  have hxn : x.float.isNan = false := by
    unfold Row.float
    cases hpf : x.perf with
    | error => exact absurd hpf hxe
    | val y => simpa [hpf, Perf.isNan] using hx.2
  obtain ⟨h1, h2⟩ := nanargminGo_spec (floats rows) 0 none (by simp)
  unfold findIncumbent
  rw [if_neg (by simp [herr])]
  cases hn : nanargminGo (floats rows) 0 none with
  | none =>
    have := (h1.mp hn).2 x.float (List.mem_map.mpr ⟨x, hx.1, rfl⟩)
    simp [hxn] at this
  | some p =>
    obtain ⟨i, y⟩ := p
    obtain ⟨_, a2, _, _⟩ := h2 i y hn
    rcases a2 with a2 | ⟨_, a5⟩
    · simp at a2
    · simp only [Nat.sub_zero, floats, List.getElem?_map, Option.map_eq_some_iff] at a5
      obtain ⟨r, hr, _⟩ := a5
      exact ⟨r, by simp [hr]⟩

/-! ### Activation is not for good, and a case that meets the hypotheses -/

/-- Ask, store the proposal, and store its report unless it is pending; once for each result. -/
def play (f : AskFn ℕ ℕ) : List (Rec ℕ ℕ) → List Res → Except Err (List (Rec ℕ ℕ))
  | H, [] => .ok H
  | H, res :: rest =>
    match f H H.length with
    | .error e => .error e
    | .ok p =>
      if res = .pending then play f (H ++ [p.toRec]) rest
      else play f (report p.key res (H ++ [p.toRec])) rest

theorem play_reach {A : AskFn ℕ ℕ → Prop} {f : AskFn ℕ ℕ} (hf : A f) (rs : List Res) :
    ∀ H H', Reach A H → play f H rs = .ok H' → Reach A H' := by
  induction rs with
  | nil => intro H H' h hp; simp only [play, Except.ok.injEq] at hp; subst hp; exact h
  | cons res rest ih =>
    intro H H' h hp
    simp only [play] at hp
    split at hp
    · simp at hp
    · rename_i p hap
      split_ifs at hp with hr
      · exact ih _ _ (.ask h hf (List.Perm.refl _) hap) hp
      · exact ih _ _ (.report _ _ (.ask h hf (List.Perm.refl _) hap) hr) hp

/-- Three rungs with budgets 1, 2 and 4 and four, two and one configurations. -/
def threeRungs : Bracket ℕ := ⟨0, 2, 2, fun r => [4, 2, 1].getD r 0, fun r => [1, 2, 4].getD r 0⟩

/-- The same numbers as `threeRungs`. -/
noncomputable def threeRungsR : Bracket ℝ :=
  ⟨0, 2, 2, fun r => [4, 2, 1].getD r 0, fun r => [1, 2, 4].getD r 0⟩

/-- Seven evaluations of four configurations. -/
def before : List (Rec ℕ ℕ) :=
  [⟨⟨0, 0⟩, 0, 1, .loss (.num 1)⟩, ⟨⟨1, 0⟩, 1, 1, .loss (.num 2)⟩, ⟨⟨0, 1⟩, 0, 2, .loss (.num 1)⟩,
   ⟨⟨2, 0⟩, 3, 1, .loss (.num 3)⟩, ⟨⟨1, 1⟩, 1, 2, .loss (.num 2)⟩, ⟨⟨0, 2⟩, 0, 4, .loss (.num 1)⟩,
   ⟨⟨3, 0⟩, 6, 1, .loss (.num 4)⟩]

/-- The view of an optimizer over `threeRungs` of a history. -/
noncomputable def threeView (T : List (Rec ℕ ℕ)) : Except Err View :=
  viewOf .geometric .constant threeRungsR 4 argsort (fun _ => (1, 1)) {} T

theorem threeRungs_agrees : Agrees threeRungs fun r => [1, 2, 4].getD r 0 :=
  ⟨by decide, fun _ _ _ => rfl⟩

theorem before_reach : Reach (IsASHA {} threeRungs) before :=
  play_reach ⟨argsort, argsort_sorts, rfl⟩
    [.loss (.num 1), .loss (.num 2), .loss (.num 1), .loss (.num 3), .loss (.num 2), .loss (.num 1),
      .loss (.num 4)] [] before .start (by decide +kernel)

theorem after_ask :
    ashaAsk {} threeRungs argsort before 7 = .ok ⟨⟨2, 1⟩, 3, 2, some ⟨2, 0⟩⟩ := by decide +kernel

theorem threeCost : BracketCost threeRungsR = 8 := by
  unfold BracketCost threeRungsR
  rw [show Finset.Ioc 0 2 = {1, 2} from rfl]
  norm_num

/-- **C82 does not hold for good**: in asynchronous search incumbent sampling can be active, and
inactive after the next proposal, because a configuration that is being continued no longer counts
with what it has used before. -/
theorem C82_stays_active_fails : ∃ (T : List (Rec ℕ ℕ)) (p : Proposal ℕ ℕ) (v v' : View),
    Reach (IsASHA {} threeRungs) T ∧ ashaAsk {} threeRungs argsort T 7 = .ok p ∧
    threeView T = .ok v ∧ threeView (T ++ [p.toRec]) = .ok v' ∧
    activateInc threeRungsR v ∧ ¬ activateInc threeRungsR v' := by
  have hA : IsMF (P := ℕ) (fun r => [1, 2, 4].getD r 0) (IsASHA {} threeRungs) :=
    .asha _ _ threeRungs_agrees
  have hR' : Reach (IsASHA {} threeRungs) (before ++ [(⟨⟨2, 1⟩, 3, 2, .pending⟩ : Rec ℕ ℕ)]) :=
    .ask before_reach ⟨argsort, argsort_sorts, rfl⟩ (List.Perm.refl _) after_ask
  have hI := Reach.inv hA before_reach
  have hI' := Reach.inv hA hR'
  obtain ⟨T1, hT1⟩ : ∃ T1, observe {} before = .ok T1 := ⟨_, rfl⟩
  obtain ⟨T2, hT2⟩ : ∃ T2, observe {} (before ++ [(⟨⟨2, 1⟩, 3, 2, .pending⟩ : Rec ℕ ℕ)]) = .ok T2 :=
    ⟨_, rfl⟩
  have hv : threeView before = .ok ⟨.geometric, .constant, threeRungsR, 4, argsort, fun _ => (1, 1),
      history {} before, finishedRungs T1.rows⟩ := by
    unfold threeView viewOf; rw [hT1]
  have hv' : threeView (before ++ [(⟨⟨2, 1⟩, 3, 2, .pending⟩ : Rec ℕ ℕ)]) =
      .ok ⟨.geometric, .constant, threeRungsR, 4, argsort, fun _ => (1, 1),
      history {} (before ++ [⟨⟨2, 1⟩, 3, 2, .pending⟩]), finishedRungs T2.rows⟩ := by
    unfold threeView viewOf; rw [hT2]
  refine ⟨before, ⟨⟨2, 1⟩, 3, 2, some ⟨2, 0⟩⟩, _, _, before_reach, after_ask, hv, hv', ?_, ?_⟩
  · rw [C82_active_iff hI (List.Perm.refl _) _ _ threeRungsR threeRungsR (by decide) _ _ _ _ _ hv,
      threeCost]
    have e : (before.filter fun t => decide (Counts {} before t)).map
        (fun t => threeRungsR.budget t.key.rung) =
        ((before.filter fun t => decide (Counts {} before t)).map (·.key.rung)).map
          threeRungsR.budget := by rw [List.map_map]; rfl
    rw [e, show (before.filter fun t => decide (Counts {} before t)).map (·.key.rung) = [0, 1, 2, 0]
      by decide +kernel]
    refine ⟨by norm_num [threeRungsR], ⟨⟨⟨0, 2⟩, 0, 4, .loss (.num 1)⟩, by decide, by decide, rfl⟩⟩
  · rw [C82_active_iff hI' (List.Perm.refl _) _ _ threeRungsR threeRungsR (by decide) _ _ _ _ _ hv',
      threeCost]
    rintro ⟨h, _⟩
    set T' := before ++ [(⟨⟨2, 1⟩, 3, 2, .pending⟩ : Rec ℕ ℕ)] with hT'
    have e : (T'.filter fun t => decide (Counts {} T' t)).map
        (fun t => threeRungsR.budget t.key.rung) =
        ((T'.filter fun t => decide (Counts {} T' t)).map (·.key.rung)).map
          threeRungsR.budget := by rw [List.map_map]; rfl
    rw [e, show (T'.filter fun t => decide (Counts {} T' t)).map (·.key.rung) = [1, 2, 0]
      by decide +kernel] at h
    norm_num [threeRungsR] at h

/-- The hypotheses of `C82_activates` and `C82_bracket_done` are met: a reachable history in which
the first four configurations make up the bracket `threeRungs`. -/
example : ∃ v, threeView before = .ok v ∧ activateInc threeRungsR v := by
  have hA : IsMF (P := ℕ) (fun r => [1, 2, 4].getD r 0) (IsASHA {} threeRungs) :=
    .asha _ _ threeRungs_agrees
  obtain ⟨T1, hT1⟩ : ∃ T1, observe {} before = .ok T1 := ⟨_, rfl⟩
  have hv : threeView before = .ok ⟨.geometric, .constant, threeRungsR, 4, argsort, fun _ => (1, 1),
      history {} before, finishedRungs T1.rows⟩ := by
    unfold threeView viewOf; rw [hT1]
  refine ⟨_, hv, C82_bracket_done (Reach.inv hA before_reach) (List.Perm.refl _) _ _ threeRungsR
    (by decide) (by norm_num [threeRungsR]) ?_ (by decide) _ _ _ _ _ hv ?_ 0 ?_ ?_⟩
  · intro r h1 h2
    have h3 : r ≤ 2 := h2
    have h4 : 0 < r := h1
    obtain rfl | rfl : r = 1 ∨ r = 2 := by omega
    all_goals norm_num [threeRungsR]
  · change ∀ t ∈ before, 0 ≤ t.key.rung ∧ t.key.rung ≤ 2
    decide
  · intro r _ h2
    have h3 : r ≤ 2 := h2
    obtain rfl | rfl | rfl : r = 0 ∨ r = 1 ∨ r = 2 := by omega
    all_goals decide +kernel
  · have h : ∀ t ∈ before, t.res ≠ .pending ∧ lossOf {} t ≠ some .nan := by decide +kernel
    exact fun t ht _ => h t ht

end Verif.PriorBand
