import Verif.Space.Equal
import Verif.Space.SpaceProps
import Verif.Space.SpaceDemo

/-!
# C134: equality of hyperparameters and of search spaces
-/

namespace Verif.Space

namespace Hp

/-- The confidence a parameter has is the one it was declared with. -/
def AsDeclared : Hp → Prop
  | float p => p.score = p.choice
  | int p => p.score = p.choice
  | cat p => p.score = p.choice
  | const _ => True

/-- Is it an integer parameter? -/
def IsInt : Hp → Prop
  | int _ => True
  | _ => False

theorem Equal.refl (h : Hp) : h.Equal h := by cases h <;> simp [Equal]

theorem Equal.symm {h g : Hp} (e : h.Equal g) : g.Equal h := by
  cases h <;> cases g <;> simp_all [Equal]

theorem Equal.trans {a b c : Hp} (h : a.Equal b) (h' : b.Equal c) : a.Equal c := by
  cases a <;> cases b <;> cases c <;> simp_all [Equal]

/-- Equal parameters have the same declaration, as far as it can be asked for, and value. -/
theorem Equal.sameDecl {h g : Hp} (hh : h.Ok) (hg : g.Ok) (e : h.Equal g) : h.SameDecl g := by
  have u1 := hh.used
  have u2 := hg.used
  cases h <;> cases g <;> simp_all [Equal, SameDecl]

theorem Equal.value {h g : Hp} (e : h.Equal g) : h.value = g.value := by
  cases h <;> cases g <;> simp_all [Equal, Hp.value]

end Hp

theorem intPrior {p : IntParam} (h : p.Used) : p.hasPrior = p.dflt.isSome := by
  induction h with
  | make h =>
    unfold IntParam.make at h
    simp only at h
    split_ifs at h
    rw [Option.bind_eq_bind, Option.bind_eq_some_iff] at h
    obtain ⟨f, _, h⟩ := h
    simp only [Option.pure_def, Option.some.injEq] at h
    rw [← h]
  | setValue v _ ih =>
    cases v
    · exact ih
    · unfold IntParam.setValue
      simp only
      split_ifs <;> exact ih
  | setDefault v _ ih => cases v <;> rfl
  | loadFrom v _ ih => exact ih
  | setConfidence c _ ih => cases c <;> exact ih

namespace SearchSpace

theorem equal_mem {s t : SearchSpace} (e : s.Equal t) {k : String} {h : Hp} (hm : (k, h) ∈ s) :
    ∃ g, (k, g) ∈ t ∧ h.Equal g := by
  obtain ⟨g, h1, h2⟩ := e.2 (k, h) hm
  exact ⟨g, Dict.mem_of_get? h1, h2⟩

theorem equal_keys {s t : SearchSpace} (hs : s.keys.Nodup) (e : s.Equal t) :
    ∀ k, k ∈ t.keys → k ∈ s.keys := by
  have hsub : s.keys ⊆ t.keys := by
    intro k hk
    obtain ⟨p, hp, rfl⟩ := List.mem_map.mp hk
    obtain ⟨g, hg, _⟩ := equal_mem e (k := p.1) (h := p.2) hp
    exact List.mem_map.mpr ⟨(p.1, g), hg, rfl⟩
  have hp : s.keys.Subperm t.keys := hs.subperm hsub
  have hl : t.keys.length ≤ s.keys.length := by
    simp only [Dict.keys, List.length_map]
    exact e.1.ge
  exact fun k hk => (hp.perm_of_length_le hl).mem_iff.mpr hk

theorem equal_symm {s t : SearchSpace} (hs : s.keys.Nodup) (ht : t.keys.Nodup) (e : s.Equal t) :
    t.Equal s := by
  refine ⟨e.1.symm, ?_⟩
  intro p hp
  have hk := equal_keys hs e p.1 (List.mem_map.mpr ⟨p, hp, rfl⟩)
  obtain ⟨q, hq, hqk⟩ := List.mem_map.mp hk
  obtain ⟨g, hg, he⟩ := e.2 q hq
  have h2 := Dict.get?_of_mem ht (k := p.1) (v := p.2) hp
  rw [hqk, h2, Option.some.injEq] at hg
  subst hg
  refine ⟨q.2, Dict.get?_of_mem hs ?_, he.symm⟩
  rw [← hqk]
  exact hq

end SearchSpace

/-- **C134, equality is an equivalence** of hyperparameters, and of search spaces with distinct names. -/
theorem C134_equivalence :
    (∀ h : Hp, h.Equal h) ∧ (∀ h g : Hp, h.Equal g → g.Equal h) ∧
    (∀ a b c : Hp, a.Equal b → b.Equal c → a.Equal c) ∧
    (∀ s : SearchSpace, s.keys.Nodup → s.Equal s) ∧
    (∀ s t : SearchSpace, s.keys.Nodup → t.keys.Nodup → s.Equal t → t.Equal s) ∧
    (∀ s t r : SearchSpace, s.Equal t → t.Equal r → s.Equal r) := by
  refine ⟨Hp.Equal.refl, fun _ _ => Hp.Equal.symm, fun _ _ _ => Hp.Equal.trans, ?_,
    fun _ _ => SearchSpace.equal_symm, ?_⟩
  · intro s hs
    exact ⟨rfl, fun p hp => ⟨p.2, Dict.get?_of_mem hs hp, Hp.Equal.refl _⟩⟩
  · intro s t r h h'
    refine ⟨h.1.trans h'.1, fun p hp => ?_⟩
    obtain ⟨g, h1, h2⟩ := h.2 p hp
    obtain ⟨f, h3, h4⟩ := h'.2 (p.1, g) (Dict.mem_of_get? h1)
    exact ⟨f, h3, h2.trans h4⟩

/-- **C134, what equality means**: equal hyperparameters have the same declaration, value and prior flag,
equal search spaces have the same names. -/
theorem C134_meaning :
    (∀ h g : Hp, h.Ok → g.Ok → h.Equal g → h.SameDecl g ∧ h.value = g.value ∧ h.hasPrior = g.hasPrior) ∧
    (∀ s t : SearchSpace, s.keys.Nodup → s.Equal t → ∀ k, k ∈ s.keys ↔ k ∈ t.keys) := by
  constructor
  · intro h g hh hg e
    refine ⟨e.sameDecl hh hg, e.value, ?_⟩
    have u1 := hh.used
    have u2 := hg.used
    cases h <;> cases g <;> simp only [Hp.Equal] at e
    · rename_i p q
      have h1 := (show p.Used from u1).inv.prior
      have h2 := (show q.Used from u2).inv.prior
      simp only [Hp.hasPrior, h1, h2, e.2.2.2.2.2.1]
    · rename_i p q
      simp only [Hp.hasPrior, intPrior u1, intPrior u2, e.2.2.2.2.2.1]
    · exact e.2.2.2.1
    · rfl
  · intro s t hs e k
    refine ⟨fun hk => ?_, SearchSpace.equal_keys hs e k⟩
    obtain ⟨p, hp, rfl⟩ := List.mem_map.mp hk
    obtain ⟨g, hg, _⟩ := SearchSpace.equal_mem e (k := p.1) (h := p.2) hp
    exact List.mem_map.mpr ⟨(p.1, g), hg, rfl⟩

namespace Hp

/-- Two calls with the same outcome: both raise or none does, and what they leave is equal. -/
def SameCall (a b : Call Hp) : Prop := a.raised = b.raised ∧ a.st.Equal b.st

end Hp

/-- **C134, equal hyperparameters answer alike**: setting or deleting a value, a default or a confidence
raises for both or for none of them, and they are equal again afterwards. -/
theorem C134_same_answers (h g : Hp) (hh : h.Ok) (hg : g.Ok) (e : h.Equal g) :
    (∀ v, Hp.SameCall (h.setValue v) (g.setValue v)) ∧
    (∀ v, Hp.SameCall (h.setDefault v) (g.setDefault v)) ∧
    Hp.SameCall h.unsetValue g.unsetValue ∧ Hp.SameCall h.unsetDefault g.unsetDefault ∧
    (∀ c, Hp.SameCall (h.setConfidence c) (g.setConfidence c)) := by
  have u1 := hh.used
  have u2 := hg.used
  cases h <;> cases g <;> simp only [Hp.Equal] at e
  · rename_i p q
    obtain ⟨e1, e2, e3, e4, e5, e6, e7⟩ := e
    refine ⟨fun v => ?_, fun v => ?_, ?_, ?_, fun c => ?_⟩
    · cases v with
      | str s => simp [Hp.SameCall, Hp.Equal, Hp.setValue, *]
      | num x =>
        simp only [Hp.setValue, Call.lift, FloatParam.setValue, e1, e2]
        split
        · simp [Hp.SameCall, Hp.Equal, *]
        · simp [Hp.SameCall, Hp.Equal, *]
    · cases v with
      | str s => simp [Hp.SameCall, Hp.Equal, Hp.setDefault, *]
      | num x =>
        simp only [Hp.setDefault, Call.lift, FloatParam.setDefault, e1, e2]
        split
        · simp [Hp.SameCall, Hp.Equal, *]
        · simp [Hp.SameCall, Hp.Equal, *]
    · simp [Hp.SameCall, Hp.Equal, Hp.unsetValue, Call.lift, FloatParam.setValue, *]
    · simp [Hp.SameCall, Hp.Equal, Hp.unsetDefault, Call.lift, FloatParam.setDefault, *]
    · cases c <;> simp [Hp.SameCall, Hp.Equal, Hp.setConfidence, Call.lift, FloatParam.setConfidence, *]
  · rename_i p q
    obtain ⟨e1, e2, e3, e4, e5, e6, e7⟩ := e
    have i1 := (show p.Used from u1).inv
    have i2 := (show q.Used from u2).inv
    have f1 : p.floatHp.lower = q.floatHp.lower := by rw [i1.fl, i2.fl, e1]
    have f2 : p.floatHp.upper = q.floatHp.upper := by rw [i1.fu, i2.fu, e2]
    refine ⟨fun v => ?_, fun v => ?_, ?_, ?_, fun c => ?_⟩
    · cases v with
      | str s => simp [Hp.SameCall, Hp.Equal, Hp.setValue, *]
      | num x =>
        simp only [Hp.setValue, Call.lift, IntParam.setValue, FloatParam.setValue, e1, e2, f1, f2]
        split
        · simp [Hp.SameCall, Hp.Equal, *]
        · split
          · simp [Hp.SameCall, Hp.Equal, *]
          · simp [Hp.SameCall, Hp.Equal, *]
    · cases v with
      | str s => simp [Hp.SameCall, Hp.Equal, Hp.setDefault, *]
      | num x =>
        simp only [Hp.setDefault, Call.lift, IntParam.setDefault, FloatParam.setDefault, f1, f2]
        split
        · simp [Hp.SameCall, Hp.Equal, *]
        · simp [Hp.SameCall, Hp.Equal, *]
    · simp [Hp.SameCall, Hp.Equal, Hp.unsetValue, Call.lift, IntParam.setValue, *]
    · simp [Hp.SameCall, Hp.Equal, Hp.unsetDefault, Call.lift, IntParam.setDefault, *]
    · cases c <;> simp [Hp.SameCall, Hp.Equal, Hp.setConfidence, Call.lift, IntParam.setConfidence, *]
  · rename_i p q
    obtain ⟨e1, e2, e3, e4, e5⟩ := e
    refine ⟨fun v => ?_, fun v => ?_, ?_, ?_, fun c => ?_⟩
    · simp only [Hp.setValue, Call.lift, CatParam.setValue, e1]
      split
      · simp [Hp.SameCall, Hp.Equal, *]
      · simp [Hp.SameCall, Hp.Equal, *]
    · simp only [Hp.setDefault, Call.lift, CatParam.setDefault, e1]
      split
      · simp [Hp.SameCall, Hp.Equal, *]
      · simp [Hp.SameCall, Hp.Equal, *]
    · simp [Hp.SameCall, Hp.Equal, Hp.unsetValue, Call.lift, CatParam.setValue, *]
    · simp [Hp.SameCall, Hp.Equal, Hp.unsetDefault, Call.lift, CatParam.setDefault, *]
    · cases c <;> simp [Hp.SameCall, Hp.Equal, Hp.setConfidence, Call.lift, CatParam.setConfidence, *]
  · rename_i p q
    have d1 : p.dflt = p.value := u1
    have d2 : q.dflt = q.value := u2
    refine ⟨fun v => ?_, fun v => ?_, ?_, ?_, fun c => ?_⟩
    · simp only [Hp.setValue, Call.lift, ConstParam.setValue, e]
      split <;> exact ⟨rfl, e⟩
    · simp only [Hp.setDefault, d1, d2, e]
      exact ⟨rfl, e⟩
    · simp only [Hp.unsetValue, Call.lift, ConstParam.setValue]
      exact ⟨by simp, by simpa [Hp.Equal] using e⟩
    · exact ⟨rfl, e⟩
    · simp only [Hp.setConfidence]
      exact ⟨rfl, e⟩

/-- Non-vacuity: an activation function, compared with itself. -/
example : Hp.SameCall ((Hp.cat demoAct).setValue (.str "tanh")) ((Hp.cat demoAct).setValue (.str "tanh")) :=
  (C134_same_answers _ _ demoAct_ok demoAct_ok (Hp.Equal.refl _)).1 _

/-- The value a parameter draws. -/
noncomputable def Hp.drawsValue (b : Bool) (d : Draw) : Hp → Option Val
  | .float p => some (.num (p.sampleValue b d.uniform d.normal))
  | .int p => some (.num (p.sampleValue b d.uniform d.normal : ℤ))
  | .cat p => p.choices[d.index]?
  | .const p => some p.value

theorem sample_drawn {h q : Hp} (hok : h.Ok) {b : Bool} {d : Draw} (hq : h.sample b d = some q) :
    q.value = h.drawsValue b d := by
  have hu := hok.used
  have fin : ∀ (r : Hp) (v : Val), h.clone = some r → h.Accepts v → q = (r.setValue v).st →
      q.value = some v := by
    intro r v hr hv he
    obtain ⟨r', hr', h1, h2, h3⟩ := Hp.clone_ok hok
    rw [hr] at hr'
    simp only [Option.some.injEq] at hr'
    subst hr'
    obtain ⟨_, s2, s3, s4⟩ := Hp.setValue_ok h3 ((h1.accepts v).mp hv)
    rw [he]
    exact s2
  cases h with
  | float p =>
    simp only [Hp.sample, Option.map_eq_some_iff] at hq
    obtain ⟨a, ha, rfl⟩ := hq
    unfold FloatParam.sample at ha
    rw [Option.bind_eq_bind, Option.bind_eq_some_iff] at ha
    obtain ⟨r, hr, ha⟩ := ha
    simp only at ha
    split_ifs at ha
    simp only [Option.pure_def, Option.some.injEq] at ha
    have hm := (FloatParam.Used.inv hu : p.Inv).sampleValue_mem b d.uniform d.normal
    exact fin (.float r) (.num (p.sampleValue b d.uniform d.normal)) (by simp [Hp.clone, hr])
      ⟨_, rfl, hm⟩ (by simp [Hp.setValue, Call.lift, ← ha])
  | int p =>
    simp only [Hp.sample, Option.map_eq_some_iff] at hq
    obtain ⟨a, ha, rfl⟩ := hq
    unfold IntParam.sample at ha
    rw [Option.bind_eq_bind, Option.bind_eq_some_iff] at ha
    obtain ⟨r, hr, ha⟩ := ha
    simp only at ha
    split_ifs at ha
    simp only [Option.pure_def, Option.some.injEq] at ha
    have hi : p.Inv := IntParam.Used.inv hu
    have hm := hi.rnd_mem (hi.finv.sampleValue_mem b d.uniform d.normal)
    exact fin (.int r) (.num (p.sampleValue b d.uniform d.normal : ℝ)) (by simp [Hp.clone, hr])
      ⟨_, rfl, hm⟩ (by simp [Hp.setValue, Call.lift, ← ha])
  | cat p =>
    simp only [Hp.sample, Option.map_eq_some_iff] at hq
    obtain ⟨a, ha, rfl⟩ := hq
    unfold CatParam.sample at ha
    simp only [Option.bind_eq_bind] at ha
    rw [Option.bind_eq_some_iff] at ha
    obtain ⟨v, hv, ha⟩ := ha
    rw [Option.bind_eq_some_iff] at ha
    obtain ⟨r, hr, ha⟩ := ha
    split_ifs at ha
    simp only [Option.pure_def, Option.some.injEq] at ha
    have := fin (.cat r) v (by simp [Hp.clone, hr]) (List.mem_of_getElem? hv)
      (by simp [Hp.setValue, Call.lift, ← ha])
    rw [this]
    exact hv.symm
  | const p =>
    simp only [Hp.sample, Option.some.injEq] at hq
    refine fin (.const ⟨p.value, p.value⟩) p.value rfl rfl ?_
    rw [← hq]
    simp [Hp.setValue, ConstParam.setValue, Call.lift]

/-- **C134, draws** (partial): with the same random numbers equal hyperparameters sample the same value.
For integers this is said without the prior only: see `C134_integer_prior_fails`. -/
theorem C134_sample_partial (h g : Hp) (hh : h.Ok) (hg : g.Ok) (e : h.Equal g) (userPriors : Bool) (d : Draw)
    (hd : h.Drawable d) (hi : userPriors = true → ¬ h.IsInt) :
    ∃ a b, h.sample userPriors d = some a ∧ g.sample userPriors d = some b ∧ a.value = b.value ∧
      a.SameDecl b := by
  have hd' : g.Drawable d := by
    cases h <;> cases g <;> simp_all [Hp.Equal, Hp.Drawable]
  obtain ⟨a, ha⟩ := Hp.sample_total hh userPriors hd
  obtain ⟨b, hb⟩ := Hp.sample_total hg userPriors hd'
  obtain ⟨a1, a2, -⟩ := Hp.sample_ok hh ha
  obtain ⟨b1, b2, -⟩ := Hp.sample_ok hg hb
  refine ⟨a, b, ha, hb, ?_, (a1.symm.trans (e.sameDecl hh hg)).trans b1⟩
  rw [sample_drawn hh ha, sample_drawn hg hb]
  have hp := (C134_meaning.1 h g hh hg e).2.2
  have u1 := hh.used
  have u2 := hg.used
  cases h <;> cases g <;> simp only [Hp.Equal] at e
  · rename_i p q
    obtain ⟨e1, e2, e3, e4, e5, e6, e7⟩ := e
    have hpr : p.hasPrior = q.hasPrior := hp
    simp only [Hp.drawsValue, FloatParam.sampleValue, FloatParam.high, FloatParam.low, e1, e2, e3, e6, e7, hpr]
  · rename_i p q
    obtain ⟨e1, e2, e3, e4, e5, e6, e7⟩ := e
    have hu : userPriors = false := by
      cases userPriors
      · rfl
      · exact absurd trivial (hi rfl)
    subst hu
    have i1 := (show p.Used from u1).inv
    have i2 := (show q.Used from u2).inv
    simp only [Hp.drawsValue, IntParam.sampleValue, FloatParam.sampleValue, i1.fl, i1.fu, i1.flog, i2.fl, i2.fu,
      i2.flog, e1, e2, e3, Bool.false_eq_true, false_and, if_false]
  · simp only [Hp.drawsValue, e.1]
  · simp only [Hp.drawsValue, e]

/-- Non-vacuity: the learning rate of the demonstration space. -/
example (d : Draw) : ∃ a b, (Hp.float demoLr).sample true d = some a ∧
    (Hp.float demoLr).sample true d = some b ∧ a.value = b.value ∧ a.SameDecl b :=
  C134_sample_partial _ _ (demoSpace_inOrder.ok ("lr", _) (by simp [demoSpace]))
    (demoSpace_inOrder.ok ("lr", _) (by simp [demoSpace])) (Hp.Equal.refl _) true d trivial
    (by simp [Hp.IsInt])

/-- **C134, weights**: equal categorical parameters weigh their choices alike. -/
theorem C134_weights (p q : CatParam Val) (hp : p.Used) (hq : q.Used) (e : (Hp.cat p).Equal (Hp.cat q)) :
    p.priorProbabilities = q.priorProbabilities := by
  obtain ⟨e1, e2, e3, e4, e5⟩ := e
  unfold CatParam.priorProbabilities
  rw [hp.inv.dfltIndex, hq.inv.dfltIndex, e1, e3, e5]

/-- **C134 fails for integers with a prior**: two integer parameters, declared with the defaults 3.4 and 3,
compare equal, and with the same random numbers sample 4 and 3 around their defaults. -/
theorem C134_integer_prior_fails : ∃ p q : IntParam,
    IntParam.make 0 10 false false (some 3.4) (1 / 2) = some p ∧
    IntParam.make 0 10 false false (some 3) (1 / 2) = some q ∧
    (Hp.int p).Equal (Hp.int q) ∧ ∃ n, p.sampleValue true 0 n = 4 ∧ q.sampleValue true 0 n = 3 := by
  have hm := IntParam.margin_bounds
  have r34 : rnd 3.4 = 3 := rnd_eq_of_near (by norm_num) (by norm_num)
  have r3 : rnd 3 = 3 := by exact_mod_cast rnd_intCast 3
  have r0 : rnd 0 = 0 := by exact_mod_cast rnd_intCast 0
  have r10 : rnd 10 = 10 := by exact_mod_cast rnd_intCast 10
  have f : ∀ x : ℝ, 0 ≤ x → x ≤ 10 → FloatParam.make (((0 : ℤ) : ℝ) - IntParam.margin)
      (((10 : ℤ) : ℝ) + IntParam.margin) false false (some x) (1 / 2) =
      some ⟨0 - IntParam.margin, 10 + IntParam.margin, false, false, some x, true, 1 / 2, 1 / 2, none, none⟩ := by
    intro x h0 h1
    rw [FloatParam.make_some (by push_cast; linarith) (by simp)
      (by intro y hy; cases hy; push_cast; constructor <;> linarith)]
    simp
  refine ⟨⟨0, 10, false, false, some 3, true, 1 / 2, 1 / 2,
      ⟨0 - IntParam.margin, 10 + IntParam.margin, false, false, some 3.4, true, 1 / 2, 1 / 2, none, none⟩,
      none, none, none⟩, ⟨0, 10, false, false, some 3, true, 1 / 2, 1 / 2,
      ⟨0 - IntParam.margin, 10 + IntParam.margin, false, false, some 3, true, 1 / 2, 1 / 2, none, none⟩,
      none, none, none⟩, ?_, ?_, by simp [Hp.Equal], 0.2 / ((10 + 2 * IntParam.margin) * (1 / 2)), ?_, ?_⟩
  · simp only [IntParam.make, r34, r0, r10, Option.map_some]
    rw [f 3.4 (by norm_num) (by norm_num)]
    simp [IntParam.logOf]
  · simp only [IntParam.make, r3, r0, r10, Option.map_some]
    rw [f 3 (by norm_num) (by norm_num)]
    simp [IntParam.logOf]
  all_goals
    have hs : (10 + IntParam.margin - (0 - IntParam.margin)) * (1 / 2 : ℝ) =
        (10 + 2 * IntParam.margin) * (1 / 2) := by ring
    have hne : (10 + 2 * IntParam.margin) * (1 / 2 : ℝ) ≠ 0 := by
      have : (0 : ℝ) < (10 + 2 * IntParam.margin) * (1 / 2) := by linarith
      exact this.ne'
    simp only [IntParam.sampleValue, FloatParam.sampleValue, FloatParam.high, FloatParam.low, Bool.false_eq_true,
      if_false, and_self, if_true]
    rw [hs, div_mul_cancel₀ _ hne, max_eq_right (by linarith), min_eq_right (by linarith)]
    exact rnd_eq_of_near (by norm_num) (by norm_num)

theorem int_clone_score {p q : IntParam} (hq : p.clone = some q) : q.score = p.choice := by
  unfold IntParam.clone at hq
  rw [Option.bind_eq_bind, Option.bind_eq_some_iff] at hq
  obtain ⟨r, hr, hq⟩ := hq
  have hrs : r.score = p.choice := by
    unfold IntParam.make at hr
    simp only at hr
    split_ifs at hr
    rw [Option.bind_eq_bind, Option.bind_eq_some_iff] at hr
    obtain ⟨f, _, hr⟩ := hr
    simp only [Option.pure_def, Option.some.injEq] at hr
    rw [← hr]
  rw [← hrs]
  split at hq
  · simp only [Option.pure_def, Option.some.injEq] at hq
    rw [← hq]
  · simp only at hq
    split_ifs at hq
    simp only [Option.pure_def, Option.some.injEq] at hq
    rw [← hq]
    unfold IntParam.setValue
    simp only
    split_ifs <;> rfl

theorem cat_clone_score {p q : CatParam Val} (hq : p.clone = some q) : q.score = p.choice := by
  unfold CatParam.clone at hq
  rw [Option.bind_eq_bind, Option.bind_eq_some_iff] at hq
  obtain ⟨r, hr, hq⟩ := hq
  have hrs : r.score = p.choice := (CatParam.make_some hr).2.2.1
  rw [← hrs]
  split at hq
  · simp only [Option.pure_def, Option.some.injEq] at hq
    rw [← hq]
  · rename_i v _
    simp only at hq
    split_ifs at hq
    simp only [Option.pure_def, Option.some.injEq] at hq
    rw [← hq]
    unfold CatParam.setValue
    simp only
    cases CatParam.index r.choices v <;> rfl

/-- **C134, copies** (partial): a hyperparameter equals its copy exactly if its confidence is the one it was
declared with.  A confidence that was set later is not copied, so that the copy is another parameter. -/
theorem C134_copy_partial (h : Hp) (hok : h.Ok) : ∃ q, h.clone = some q ∧ (h.Equal q ↔ h.AsDeclared) := by
  obtain ⟨q, hq, h1, h2, h3⟩ := Hp.clone_ok hok
  refine ⟨q, hq, ?_⟩
  have u1 := hok.used
  cases h with
  | float p =>
    have hi := (show p.Used from u1).inv
    simp only [Hp.clone, hi.clone_eq, Option.map_some, Option.some.injEq] at hq
    subst hq
    simp [Hp.Equal, Hp.AsDeclared]
  | int p =>
    simp only [Hp.clone, Option.map_eq_some_iff] at hq
    obtain ⟨r, hr, rfl⟩ := hq
    have hs := int_clone_score hr
    obtain ⟨d1, d2, d3, d4, d5⟩ := h1
    have hv := C58_int_clone_partial hr
    simp [Hp.Equal, Hp.AsDeclared, d1, d2, d3, d4, d5, hs, hv.2.2.1]
  | cat p =>
    simp only [Hp.clone, Option.map_eq_some_iff] at hq
    obtain ⟨r, hr, rfl⟩ := hq
    have hs := cat_clone_score hr
    obtain ⟨d1, d2⟩ := h1
    have hv : r.value = p.value := h2
    have hpr : r.hasPrior = p.hasPrior := by
      rw [(show r.Used from h3.used).inv.prior, (show p.Used from u1).inv.prior, d2]
    simp [Hp.Equal, Hp.AsDeclared, d1, d2, hs, hv, hpr]
  | const p =>
    simp only [Hp.clone, Option.some.injEq] at hq
    subst hq
    simp [Hp.Equal, Hp.AsDeclared]

/-- **C134 fails for copies**: a parameter whose confidence was set is not equal to its copy. -/
theorem C134_copy_fails : ∃ h q : Hp, h.Ok ∧ h.clone = some q ∧ ¬ h.Equal q := by
  have hok : (Hp.cat (demoAct.setConfidence (some 6)).st).Ok :=
    ⟨demoAct_used.setConfidence (some 6), by simp [Hp.value, Hp.Accepts, demoAct, CatParam.setConfidence],
      by simp [Hp.dflt, Hp.Accepts, demoAct, CatParam.setConfidence]⟩
  obtain ⟨q, h1, h2⟩ := C134_copy_partial _ hok
  refine ⟨_, q, hok, h1, fun e => ?_⟩
  have := h2.mp e
  simp [Hp.AsDeclared, demoAct, CatParam.setConfidence] at this

end Verif.Space
