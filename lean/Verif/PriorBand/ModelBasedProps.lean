import Verif.PriorBand.ModelBased
import Verif.PriorBand.ActivationProps

/-!
# Model-based multi-fidelity search (C86)
-/

namespace Verif.PriorBand

open Neps Neps.MF

variable {P F : Type}

/-! ## Specification -/

/-- The number of finished trials at the rung. -/
def finishedAt (H : List (Rec P F)) (r : ℕ) : ℕ :=
  (H.filter fun t => decide (t.res ≠ .pending ∧ t.key.rung = r)).length

/-- The loss of a finished trial as a number; NaN for a crashed one without a replacement. -/
def lossNumber (st : Settings) (t : Rec P F) : PyFloat :=
  match getLoss st t.res with
  | .ok (.val x) => x
  | _ => .nan

/-! ## Lemmas -/

theorem history_eq (st : Settings) (H : List (Rec P F)) (r : ℕ) : history st H r =
    (H.filter fun t => decide (t.res ≠ .pending ∧ t.key.rung = r)).map
      fun t => (t.key.cfg, lossNumber st t) := by
  unfold history lossNumber
  congr 1
  apply List.filter_congr
  intro t _
  rw [Bool.eq_iff_iff]
  simp [Rec.isPending]

theorem finishedAt_perm {H H' : List (Rec P F)} (h : H'.Perm H) (r : ℕ) :
    finishedAt H' r = finishedAt H r := (h.filter _).length_eq

theorem history_length (st : Settings) (H : List (Rec P F)) (r : ℕ) :
    (history st H r).length = finishedAt H r := by
  rw [history_eq, List.length_map]; rfl

theorem activeRungGo_spec (minR init : ℕ) (size : ℕ → ℕ) (n : ℕ) :
    (∀ r, activeRungGo minR init size n = some r ↔ (minR ≤ r ∧ r < minR + n ∧ init ≤ size r ∧
      ∀ r', r < r' → r' < minR + n → size r' < init)) ∧
    (activeRungGo minR init size n = none ↔ ∀ r, minR ≤ r → r < minR + n → size r < init) := by
  induction n with
  | zero =>
    simp only [activeRungGo, reduceCtorEq, false_iff, add_zero, true_iff]
    exact ⟨fun r h => by omega, fun r h1 h2 => by omega⟩
  | succ n ih =>
    rw [activeRungGo]
    by_cases h : init ≤ size (minR + n)
    · rw [if_pos h]
      simp only [Option.some.injEq, reduceCtorEq, false_iff]
      constructor
      · intro r
        constructor
        · rintro rfl
          exact ⟨by omega, by omega, h, fun r' h1 h2 => by omega⟩
        · rintro ⟨h1, h2, h3, h4⟩
          by_contra hne
          have := h4 (minR + n) (by omega) (by omega)
          omega
      · intro hall
        have := hall (minR + n) (by omega) (by omega)
        omega
    · rw [if_neg h]
      obtain ⟨i1, i2⟩ := ih
      constructor
      · intro r
        rw [i1]
        constructor
        · rintro ⟨h1, h2, h3, h4⟩
          refine ⟨h1, by omega, h3, fun r' a b => ?_⟩
          by_cases hr : r' = minR + n
          · subst hr; omega
          · exact h4 r' a (by omega)
        · rintro ⟨h1, h2, h3, h4⟩
          refine ⟨h1, ?_, h3, fun r' a b => h4 r' a (by omega)⟩
          by_contra hc
          have : r = minR + n := by omega
          subst this
          exact h h3
      · rw [i2]
        constructor
        · intro hall r h1 h2
          by_cases hr : r = minR + n
          · subst hr; omega
          · exact hall r h1 (by omega)
        · intro hall r h1 h2
          exact hall r h1 (by omega)

/-! ## C86 -/

/-- **C86**: the surrogate of one rung is built at the highest rung of the bracket with at least
the initial number of finished trials; the initial phase lasts exactly until there is one. -/
theorem C86_active {H H' : List (Rec P F)} (hp : H'.Perm H) {wt : WeightType} {is : IncStyle}
    {self : Bracket ℝ} (hr : self.minR ≤ self.maxR) {mb : ℝ} {sort : Argsort} {score : ℕ → ℝ × ℝ}
    {st : Settings} {v : View} (hv : viewOf wt is self mb sort score st H' = .ok v) (init : ℕ) :
    (∀ r, activeRung v.self init v.hist = some r ↔ (self.minR ≤ r ∧ r ≤ self.maxR ∧
      init ≤ finishedAt H r ∧ ∀ r', r < r' → r' ≤ self.maxR → finishedAt H r' < init)) ∧
    (isInitPhase .rung v init = true ↔
      ∀ r, self.minR ≤ r → r ≤ self.maxR → finishedAt H r < init) := by
  obtain ⟨T, _, rfl⟩ := viewOf_ok hv
  have hn : self.minR + numRungs self = self.maxR + 1 := by unfold numRungs; omega
  obtain ⟨h1, h2⟩ := activeRungGo_spec self.minR init (fun r => (history st H' r).length) (numRungs self)
  simp only [history_length, finishedAt_perm hp, hn, Nat.lt_succ_iff] at h1 h2
  constructor
  · intro r
    unfold activeRung
    simp only [history_length, finishedAt_perm hp]
    exact h1 r
  · unfold isInitPhase activeRung
    simp only [history_length, finishedAt_perm hp, Option.isNone_iff_eq_none]
    exact h2

/-- **C86**: with one surrogate per rung, the initial phase is left for good: more trials, or
results of running ones, do not bring it back. -/
theorem C86_init_over {H₁ H₂ : List (Rec P F)} {wt : WeightType} {is : IncStyle}
    {self : Bracket ℝ} (hr : self.minR ≤ self.maxR) {mb : ℝ} {sort : Argsort} {score : ℕ → ℝ × ℝ}
    {st : Settings} {v₁ v₂ : View} (h₁ : viewOf wt is self mb sort score st H₁ = .ok v₁)
    (h₂ : viewOf wt is self mb sort score st H₂ = .ok v₂) (init : ℕ) (hn : (H₁.map (·.key)).Nodup)
    (hsub : ∀ t ∈ H₁, t.res ≠ .pending → ∃ t' ∈ H₂, t'.key = t.key ∧ t'.res ≠ .pending)
    (h : isInitPhase .rung v₁ init = false) : isInitPhase .rung v₂ init = false := by
  obtain ⟨_, a1⟩ := C86_active (List.Perm.refl _) hr h₁ init
  obtain ⟨_, a2⟩ := C86_active (List.Perm.refl _) hr h₂ init
  rw [← Bool.not_eq_true] at h ⊢
  rw [a1] at h
  rw [a2]
  intro hall
  apply h
  intro r h1 h2
  refine lt_of_le_of_lt ?_ (hall r h1 h2)
  unfold finishedAt
  have key : ((H₁.filter fun t => decide (t.res ≠ .pending ∧ t.key.rung = r)).map (·.key)) ⊆
      ((H₂.filter fun t => decide (t.res ≠ .pending ∧ t.key.rung = r)).map (·.key)) := by
    intro k hk
    simp only [List.mem_map, List.mem_filter, decide_eq_true_eq] at hk ⊢
    obtain ⟨t, ⟨ht, hres, hrung⟩, rfl⟩ := hk
    obtain ⟨t', ht', hk', hres'⟩ := hsub t ht hres
    exact ⟨t', ⟨ht', hres', by rw [hk']; exact hrung⟩, hk'⟩
  have hnd : ((H₁.filter fun t => decide (t.res ≠ .pending ∧ t.key.rung = r)).map (·.key)).Nodup :=
    hn.sublist (List.Sublist.map _ List.filter_sublist)
  have := (hnd.subperm key).length_le
  simpa using this

/-- **C86**: the surrogate of one rung is trained on exactly the finished trials at that rung, with
their losses there and the fidelity of the rung. -/
theorem C86_train_rung {H H' : List (Rec P F)} (hp : H'.Perm H) {wt : WeightType} {is : IncStyle}
    {self : Bracket ℝ} {mb : ℝ} {sort : Argsort} {score : ℕ → ℝ × ℝ} {st : Settings} {v : View}
    (hv : viewOf wt is self mb sort score st H' = .ok v) (r : ℕ) :
    (trainRung v.self v.hist r).Perm
      ((H.filter fun t => decide (t.res ≠ .pending ∧ t.key.rung = r)).map
        fun t => (t.key.cfg, self.budget t.key.rung, lossNumber st t)) := by
  obtain ⟨T, _, rfl⟩ := viewOf_ok hv
  unfold trainRung
  simp only [history_eq, List.map_map]
  have : ((H'.filter fun t => decide (t.res ≠ .pending ∧ t.key.rung = r)).map
      ((fun c : ℕ × PyFloat => (c.1, self.budget r, c.2)) ∘ fun t => (t.key.cfg, lossNumber st t))) =
      (H'.filter fun t => decide (t.res ≠ .pending ∧ t.key.rung = r)).map
        fun t => (t.key.cfg, self.budget t.key.rung, lossNumber st t) := by
    apply List.map_congr_left
    intro t ht
    rw [List.mem_filter, decide_eq_true_eq] at ht
    simp [ht.2.2]
  rw [this]
  exact (hp.filter _).map _

/-- **C86**: the joint surrogate is trained on exactly the finished trials at the rungs of the
bracket, every one with the fidelity of its own rung. -/
theorem C86_train_joint {H H' : List (Rec P F)} (hp : H'.Perm H) {wt : WeightType} {is : IncStyle}
    {self : Bracket ℝ} (hr : self.minR ≤ self.maxR) {mb : ℝ} {sort : Argsort} {score : ℕ → ℝ × ℝ}
    {st : Settings} {v : View} (hv : viewOf wt is self mb sort score st H' = .ok v) :
    (trainJoint v.self v.hist).Perm
      ((H.filter fun t => decide (t.res ≠ .pending ∧ self.minR ≤ t.key.rung ∧
          t.key.rung ≤ self.maxR)).map
        fun t => (t.key.cfg, self.budget t.key.rung, lossNumber st t)) := by
  have hself : v.self = self := by obtain ⟨T, _, rfl⟩ := viewOf_ok hv; rfl
  unfold trainJoint
  rw [hself]
  have key : ∀ n, (((List.range' self.minR n).map (trainRung self v.hist)).flatten).Perm
      ((H.filter fun t => decide (t.res ≠ .pending ∧ self.minR ≤ t.key.rung ∧
          t.key.rung < self.minR + n)).map
        fun t => (t.key.cfg, self.budget t.key.rung, lossNumber st t)) := by
    intro n
    induction n with
    | zero =>
      rw [show (H.filter fun t => decide (t.res ≠ .pending ∧ self.minR ≤ t.key.rung ∧
          t.key.rung < self.minR + 0)) = [] by
        rw [List.filter_eq_nil_iff]
        intro t _
        simp only [decide_eq_true_eq]
        omega]
      simp
    | succ n ih =>
      rw [List.range'_concat, List.map_append, List.flatten_append]
      have ht := C86_train_rung hp hv (self.minR + 1 * n)
      rw [hself] at ht
      simp only [List.map_cons, List.map_nil, List.flatten_cons, List.flatten_nil, List.append_nil]
      refine (ih.append ht).trans ?_
      rw [← List.map_append]
      apply List.Perm.map
      have h1 : (H.filter fun t => decide (t.res ≠ .pending ∧ self.minR ≤ t.key.rung ∧
          t.key.rung < self.minR + n)) =
          (H.filter fun t => decide (t.res ≠ .pending ∧ self.minR ≤ t.key.rung ∧
          t.key.rung < self.minR + (n + 1))).filter fun t => decide (t.key.rung < self.minR + n) := by
        rw [List.filter_filter]
        apply List.filter_congr
        intro t _
        rw [Bool.eq_iff_iff]
        simp only [Bool.and_eq_true, decide_eq_true_eq]
        constructor
        · rintro ⟨a, b, c⟩; exact ⟨c, a, b, by omega⟩
        · rintro ⟨c, a, b, _⟩; exact ⟨a, b, c⟩
      have h2 : (H.filter fun t => decide (t.res ≠ .pending ∧ t.key.rung = self.minR + 1 * n)) =
          (H.filter fun t => decide (t.res ≠ .pending ∧ self.minR ≤ t.key.rung ∧
          t.key.rung < self.minR + (n + 1))).filter fun t => !decide (t.key.rung < self.minR + n) := by
        rw [List.filter_filter]
        apply List.filter_congr
        intro t _
        rw [Bool.eq_iff_iff]
        simp only [Bool.and_eq_true, decide_eq_true_eq, Bool.not_eq_true', decide_eq_false_iff_not]
        constructor
        · rintro ⟨a, b⟩; exact ⟨by omega, a, by omega, by omega⟩
        · rintro ⟨c, a, b, _⟩; exact ⟨a, by omega⟩
      rw [h1, h2]
      exact List.filter_append_perm _ _
  have hn : self.minR + numRungs self = self.maxR + 1 := by unfold numRungs; omega
  have := key (numRungs self)
  rw [hn] at this
  simpa only [Nat.lt_succ_iff] using this

/-- **C86**: the trials the surrogate treats as running are those that are, at the highest rung of
their configuration; but also finished ones whose loss is NaN. -/
theorem C86_pending {budget : ℕ → F} {H H' : List (Rec P F)} (hI : Inv budget H) (hp : H'.Perm H)
    {st : Settings} {T : Table P F} (ho : observe st H' = .ok T) (self : Bracket ℝ) (r c : ℕ) (x : ℝ) :
    (c, x) ∈ pendingRung self T.rows r ↔ x = self.budget r ∧ ∃ t ∈ H, t.key = ⟨c, r⟩ ∧
      (∀ t' ∈ H, t'.key.cfg = c → t'.key.rung ≤ r) ∧
      (t.res = .pending ∨ getLoss st t.res = .ok (.val .nan)) := by
  unfold pendingRung
  simp only [List.mem_map, List.mem_filter, beq_iff_eq, Prod.mk.injEq]
  constructor
  · rintro ⟨w, ⟨⟨hw, hnan⟩, hrung⟩, hcfg, rfl⟩
    refine ⟨rfl, ?_⟩
    have hrow := (mem_rows hI hp ho w).mp hw
    obtain ⟨_, t, ht, hk, _, hl, hmax⟩ := observe_row hI hp ho hrow
    subst hcfg
    rw [hrung] at hk hmax
    refine ⟨t, ht, hk, hmax, Or.inr ?_⟩
    rw [hl]
    cases hpf : w.perf with
    | error => rw [hpf] at hnan; cases hnan
    | val y =>
      rw [hpf] at hnan
      cases y <;> simp_all [Perf.isNan, PyFloat.isNan]
  · rintro ⟨rfl, t, ht, hk, hmax, hres⟩
    have hl : getLoss st t.res = .ok (.val .nan) := by
      rcases hres with h | h
      · rw [h]; rfl
      · exact h
    cases hrow : T.row c with
    | none =>
      exact absurd (by rw [hk]) ((observe_none hI hp ho c).mp hrow t ht)
    | some w =>
      obtain ⟨hc, t', ht', hk', _, hl', hmax'⟩ := observe_row hI hp ho hrow
      have e : w.rung = r := by
        have h1 := hmax' t ht (by rw [hk])
        have h2 := hmax t' ht' (by rw [hk'])
        rw [hk] at h1
        rw [hk'] at h2
        exact Nat.le_antisymm h2 h1
      have et : t' = t := by
        have : t'.key = t.key := by rw [hk, hk', e]
        exact List.inj_on_of_nodup_map hI.nodup ht' ht this
      rw [et, hl] at hl'
      simp only [Except.ok.injEq] at hl'
      refine ⟨w, ⟨⟨(mem_rows hI hp ho w).mpr (by rw [hc]; exact hrow), ?_⟩, e⟩, hc, rfl⟩
      rw [← hl']
      rfl

/-- **C86**: the running trials the joint surrogate is given have the fidelity of their own rung;
they are those of the surrogates of the single rungs. -/
theorem C86_pending_joint {budget : ℕ → F} {H H' : List (Rec P F)} (hI : Inv budget H)
    (hp : H'.Perm H) {st : Settings} {T : Table P F} (ho : observe st H' = .ok T)
    (self : Bracket ℝ) (c : ℕ) (x : ℝ) :
    (c, x) ∈ pendingJoint self T.rows ↔ ∃ r, x = self.budget r ∧ ∃ t ∈ H, t.key = ⟨c, r⟩ ∧
      (∀ t' ∈ H, t'.key.cfg = c → t'.key.rung ≤ r) ∧
      (t.res = .pending ∨ getLoss st t.res = .ok (.val .nan)) := by
  have e : (c, x) ∈ pendingJoint self T.rows ↔ ∃ r, (c, x) ∈ pendingRung self T.rows r := by
    unfold pendingJoint pendingRung
    simp only [List.mem_map, List.mem_filter, beq_iff_eq, Prod.mk.injEq]
    constructor
    · rintro ⟨w, h, hc, hx⟩; exact ⟨w.rung, w, ⟨h, rfl⟩, hc, hx⟩
    · rintro ⟨r, w, ⟨h, rfl⟩, hc, hx⟩; exact ⟨w, h, hc, hx⟩
  rw [e]
  exact exists_congr fun r => C86_pending hI hp ho self r c x

/-- **C86**: with a joint surrogate the initial phase lasts exactly as long as the configurations
whose latest evaluation is finished have used, counting each at the budget of that evaluation, less
than the initial number of full evaluations. -/
theorem C86_joint_init {budget : ℕ → F} {H H' : List (Rec P F)} (hI : Inv budget H)
    (hp : H'.Perm H) {wt : WeightType} {is : IncStyle} {self : Bracket ℝ} {mb : ℝ} (hmb : 0 < mb)
    {sort : Argsort} {score : ℕ → ℝ × ℝ} {st : Settings} {v : View}
    (hv : viewOf wt is self mb sort score st H' = .ok v) (init : ℕ) :
    isInitPhase .joint v init = true ↔
      ((H.filter fun t => decide (Counts st H t)).map fun t => self.budget t.key.rung).sum <
        init * mb := by
  obtain ⟨T, hT, rfl⟩ := viewOf_ok hv
  unfold isInitPhase
  simp only [decide_eq_true_eq]
  rw [resourcesUsed, ((counts_row hI hp hT).map self.budget).sum_eq, List.map_map, div_lt_iff₀ hmb]
  rfl

/-- **C86 fails for the joint surrogate**: the initial phase can be over, and come back with the
next proposal, because a configuration that is being continued no longer counts with what it has
used before. -/
theorem C86_joint_init_over_fails : ∃ (T : List (Rec ℕ ℕ)) (p : Proposal ℕ ℕ) (v v' : View),
    Reach (IsASHA {} threeRungs) T ∧ ashaAsk {} threeRungs argsort T 7 = .ok p ∧
    threeView T = .ok v ∧ threeView (T ++ [p.toRec]) = .ok v' ∧
    isInitPhase .joint v 2 = false ∧ isInitPhase .joint v' 2 = true := by
  have hA : IsMF (P := ℕ) (fun r => [1, 2, 4].getD r 0) (IsASHA {} threeRungs) :=
    .asha _ _ threeRungs_agrees
  have hR' : Reach (IsASHA {} threeRungs) (before ++ [(⟨⟨2, 1⟩, 3, 2, .pending⟩ : Rec ℕ ℕ)]) :=
    .ask before_reach ⟨argsort, argsort_sorts, rfl⟩ (List.Perm.refl _) after_ask
  have hI := Reach.inv hA before_reach
  have hI' := Reach.inv hA hR'
  obtain ⟨T1, hT1⟩ : ∃ T1, observe {} before = .ok T1 := ⟨_, rfl⟩
  obtain ⟨T2, hT2⟩ : ∃ T2, observe {} (before ++ [(⟨⟨2, 1⟩, 3, 2, .pending⟩ : Rec ℕ ℕ)]) = .ok T2 :=
    ⟨_, rfl⟩
  have hv : threeView before = .ok ⟨.geometric, .constant, threeRungsR, 4, argsort, fun _ => (1, 1),
      history {} before, finishedRungs T1.rows⟩ := by
    unfold threeView viewOf; rw [hT1]
  have hv' : threeView (before ++ [(⟨⟨2, 1⟩, 3, 2, .pending⟩ : Rec ℕ ℕ)]) =
      .ok ⟨.geometric, .constant, threeRungsR, 4, argsort, fun _ => (1, 1),
      history {} (before ++ [⟨⟨2, 1⟩, 3, 2, .pending⟩]), finishedRungs T2.rows⟩ := by
    unfold threeView viewOf; rw [hT2]
  refine ⟨before, ⟨⟨2, 1⟩, 3, 2, some ⟨2, 0⟩⟩, _, _, before_reach, after_ask, hv, hv', ?_, ?_⟩
  · rw [← Bool.not_eq_true, C86_joint_init hI (List.Perm.refl _) (by norm_num) hv]
    have e : (before.filter fun t => decide (Counts {} before t)).map
        (fun t => threeRungsR.budget t.key.rung) =
        ((before.filter fun t => decide (Counts {} before t)).map (·.key.rung)).map
          threeRungsR.budget := by rw [List.map_map]; rfl
    rw [e, show (before.filter fun t => decide (Counts {} before t)).map (·.key.rung) = [0, 1, 2, 0]
      by decide +kernel]
    norm_num [threeRungsR]
  · rw [C86_joint_init hI' (List.Perm.refl _) (by norm_num) hv']
    set T' := before ++ [(⟨⟨2, 1⟩, 3, 2, .pending⟩ : Rec ℕ ℕ)] with hT'
    have e : (T'.filter fun t => decide (Counts {} T' t)).map
        (fun t => threeRungsR.budget t.key.rung) =
        ((T'.filter fun t => decide (Counts {} T' t)).map (·.key.rung)).map
          threeRungsR.budget := by rw [List.map_map]; rfl
    rw [e, show (T'.filter fun t => decide (Counts {} T' t)).map (·.key.rung) = [1, 2, 0]
      by decide +kernel]
    norm_num [threeRungsR]

/-- **C86**: before the initial phase is over, and without a model, configurations come from the
sampling policy, if there is one. -/
theorem C86_initial (modelBased hasPolicy : Bool) (m : Modelling) (v : View) (init rung : ℕ)
    (h : modelBased = false ∨ isInitPhase m v init = true) :
    sampleNew modelBased hasPolicy m v init rung = .ok (if hasPolicy then .policy else .space) := by
  unfold sampleNew
  rcases h with h | h
  · subst h; cases hasPolicy <;> simp
  · rw [h]; cases hasPolicy <;> simp

/-- **C86 fails after the initial phase**: the model-based optimizers do not return a configuration
any more, every attempt to sample one raises. -/
theorem C86_model_fails (hasPolicy : Bool) (m : Modelling) (v : View) (init rung : ℕ)
    (h : isInitPhase m v init = false) :
    ∃ e, sampleNew true hasPolicy m v init rung = .error e := by
  unfold sampleNew
  rw [h]
  cases m with
  | rung => exact ⟨_, rfl⟩
  | joint =>
    by_cases hh : v.hist rung = []
    · exact ⟨.valueError, by simp [hh]⟩
    · exact ⟨.attributeError, by simp [hh, modelPolicySample]⟩

/-- **C86**, the weight of the prior: the acquisition function is not weighted by the prior before
100000 full evaluations have been spent, and is afterwards. -/
theorem C86_prior_weight (t : ℝ) (ht : 0 < t) :
    (t ≤ 100000 → modelPriorExponent t = some none) ∧
    (100000 < t → modelPriorExponent t = some (some (10 / t))) := by
  unfold modelPriorExponent
  rw [if_neg ht.ne']
  have hiff : 10 / t < 1 / 10000 ↔ 100000 < t := by
    rw [div_lt_div_iff₀ ht (by norm_num)]
    constructor <;> intro h <;> linarith
  exact ⟨fun h => by rw [if_neg (fun h' => not_lt.mpr h (hiff.mp h'))],
    fun h => by rw [if_pos (hiff.mpr h)]⟩

/-- A reachable history that meets the hypotheses of the theorems above: with an initial design of
two the surrogate is built at rung 1, the initial phase is over, and sampling raises. -/
example : Reach (IsASHA {} threeRungs) before ∧ ∃ v, threeView before = .ok v ∧
    activeRung v.self 2 v.hist = some 1 ∧ isInitPhase .rung v 2 = false ∧
    (∃ e, sampleNew true true .rung v 2 0 = .error e) ∧
    (trainRung v.self v.hist 1).Perm [(0, 2, .num 1), (1, 2, .num 2)] := by
  refine ⟨before_reach, ?_⟩
  obtain ⟨T1, hT1⟩ : ∃ T1, observe {} before = .ok T1 := ⟨_, rfl⟩
  have hv : threeView before = .ok ⟨.geometric, .constant, threeRungsR, 4, argsort, fun _ => (1, 1),
      history {} before, finishedRungs T1.rows⟩ := by
    unfold threeView viewOf; rw [hT1]
  obtain ⟨h1, h2⟩ := C86_active (List.Perm.refl _) (show threeRungsR.minR ≤ threeRungsR.maxR by decide)
    hv 2
  have hf : ∀ r, 1 < r → r ≤ 2 → finishedAt before r < 2 := by
    intro r a b
    obtain rfl : r = 2 := by omega
    decide +kernel
  have h3 := (h1 1).mpr ⟨by decide, by decide, by decide +kernel, hf⟩
  have h4 := Bool.not_eq_true _ ▸ mt h2.mp (by
    intro hall
    exact absurd (hall 1 (by decide) (by decide)) (by decide +kernel))
  refine ⟨_, hv, h3, h4, C86_model_fails _ _ _ _ _ h4, ?_⟩
  have := C86_train_rung (List.Perm.refl _) hv 1
  refine this.trans (List.Perm.of_eq ?_)
  rw [show (before.filter fun t => decide (t.res ≠ .pending ∧ t.key.rung = 1)) =
    [⟨⟨0, 1⟩, 0, 2, .loss (.num 1)⟩, ⟨⟨1, 1⟩, 1, 2, .loss (.num 2)⟩] by decide +kernel]
  simp [threeRungsR, lossNumber, getLoss]

end Verif.PriorBand
