import Verif.Space.SpaceLemmas
import Mathlib.Tactic.NormNum

/-!
# A concrete search space, used to show that the hypotheses of the theorems can be met
-/

namespace Verif.Space

/-- An activation function with the value "relu". -/
noncomputable def demoAct : CatParam Val :=
  ⟨[.str "relu", .str "tanh", .str "gelu"], some (.str "tanh"), some 1, true, 2, 2,
    some (.str "relu"), some 0⟩

/-- The number of epochs, a fidelity between 1 and 9, without a value. -/
noncomputable def demoEpochs : IntParam :=
  ⟨1, 9, false, true, none, false, 1 / 4, 1 / 4,
    ⟨((1 : ℤ) : ℝ) - IntParam.margin, ((9 : ℤ) : ℝ) + IntParam.margin, false, true, none, false,
      1 / 4, 1 / 4, none, none⟩, none, none, none⟩

/-- A logarithmic learning rate with a default. -/
noncomputable def demoLr : FloatParam :=
  ⟨1, 10, true, false, some 2, true, 1 / 4, 1 / 4, none, none⟩

/-- The space of the three. -/
noncomputable def demoSpace : SearchSpace :=
  [("act", .cat demoAct), ("epochs", .int demoEpochs), ("lr", .float demoLr)]

theorem demoAct_used : demoAct.Used := by
  have ha : CatParam.make [Val.str "relu", .str "tanh", .str "gelu"] (some (.str "tanh")) 2 =
      some ⟨[.str "relu", .str "tanh", .str "gelu"], some (.str "tanh"), some 1, true, 2, 2, none,
        none⟩ := by
    simp [CatParam.make, CatParam.index, List.findIdx?_cons]
  have hu := CatParam.Used.setValue (some (Val.str "relu")) (.make ha)
  have : (CatParam.setValue ⟨[Val.str "relu", .str "tanh", .str "gelu"], some (.str "tanh"), some 1,
      true, 2, 2, none, none⟩ (some (.str "relu"))).st = demoAct := by
    simp [CatParam.setValue, CatParam.index, demoAct, List.findIdx?_cons]
  rwa [this] at hu

theorem demoEpochs_used : demoEpochs.Used := by
  obtain ⟨f, hf, hi⟩ := IntParam.make_some (l := 1) (u := 9) (log := false) (fid := true)
    (d := none) (s := 1 / 4) (by norm_num) (by simp) (by simp)
  have hm := IntParam.margin_bounds
  rw [FloatParam.make_some (by push_cast; linarith) (by simp) (by simp)] at hf
  simp only [Option.some.injEq] at hf
  subst hf
  exact IntParam.Used.make hi

theorem demoLr_used : demoLr.Used :=
  FloatParam.Used.make (FloatParam.make_some (l := 1) (u := 10) (log := true) (fid := false)
    (d := some 2) (s := 1 / 4) (by norm_num) (by simp) (by simp; norm_num))

theorem demoAct_ok : (Hp.cat demoAct).Ok :=
  ⟨demoAct_used, by simp [Hp.value, Hp.Accepts, demoAct], by simp [Hp.dflt, Hp.Accepts, demoAct]⟩

theorem demoEpochs_ok : (Hp.int demoEpochs).Ok :=
  ⟨demoEpochs_used, by simp [Hp.value, demoEpochs], by simp [Hp.dflt, demoEpochs]⟩

theorem demoLr_ok : (Hp.float demoLr).Ok :=
  ⟨demoLr_used, by simp [Hp.value, demoLr], by
    simp only [Hp.dflt, demoLr, Option.map_some, Option.some.injEq, Hp.Accepts]
    rintro v rfl
    exact ⟨2, rfl, by norm_num, by norm_num⟩⟩

theorem demoSpace_inOrder : demoSpace.InOrder := by
  refine ⟨demoSpace, by simp [demoSpace, Dict.keys], ?_, ?_⟩
  · simp only [demoSpace, List.mem_cons, List.not_mem_nil, or_false]
    rintro p (rfl | rfl | rfl)
    · exact demoAct_ok
    · exact demoEpochs_ok
    · exact demoLr_ok
  · have hs : Dict.sorted demoSpace = demoSpace := by
      unfold Dict.sorted
      apply List.mergeSort_of_pairwise
      simp only [demoSpace, List.pairwise_cons, List.mem_cons, List.not_mem_nil, or_false,
        forall_eq_or_imp, forall_eq, decide_eq_true_eq, false_imp_iff, implies_true, and_true,
        List.Pairwise.nil]
      decide
    unfold SearchSpace.make
    simp only [hs]
    rw [if_neg]
    simp [demoSpace, Hp.isFidelity, demoEpochs, demoLr]

/-- A float parameter, without a log scale, with a value. -/
noncomputable def demoFloat (l u : ℝ) (fid : Bool) (d : Option ℝ) (v : ℝ) : FloatParam :=
  ⟨l, u, false, fid, d, d.isSome, 1 / 4, 1 / 4, some v, some ((v - l) / (u - l))⟩

theorem demoFloat_ok {l u : ℝ} {fid : Bool} {d : Option ℝ} {v : ℝ} (h : l < u) (hv : l ≤ v ∧ v ≤ u)
    (hd : ∀ x, d = some x → l ≤ x ∧ x ≤ u) : (Hp.float (demoFloat l u fid d v)).Ok := by
  have hm := FloatParam.make_some (l := l) (u := u) (log := false) (fid := fid) (d := d) (s := 1 / 4) h
    (by simp) hd
  have hu := FloatParam.Used.setValue (some v) (.make hm)
  refine ⟨?_, ?_, ?_⟩
  · show (demoFloat l u fid d v).Used
    have e : (FloatParam.setValue (⟨l, u, false, fid, d, d.isSome, 1 / 4, 1 / 4, none, none⟩ : FloatParam)
        (some v)).st = demoFloat l u fid d v := by
      simp [FloatParam.setValue, hv, demoFloat, FloatParam.valueToNormalized, FloatParam.low,
        FloatParam.high]
    rwa [e] at hu
  · intro w hw
    simp only [Hp.value, demoFloat, Option.map_some, Option.some.injEq] at hw
    exact ⟨v, hw.symm, hv⟩
  · intro w hw
    simp only [Hp.dflt, demoFloat, Option.map_eq_some_iff] at hw
    obtain ⟨x, hx, rfl⟩ := hw
    exact ⟨x, rfl, hd x hx⟩

/-- A learning rate and a fidelity. -/
noncomputable def demoPair (x e : ℝ) : SearchSpace :=
  [("a", .float (demoFloat 0 1 false (some (1 / 2)) x)), ("e", .float (demoFloat 1 10 true none e))]

theorem demoPair_inOrder {x e : ℝ} (hx : 0 ≤ x ∧ x ≤ 1) (he : 1 ≤ e ∧ e ≤ 10) :
    (demoPair x e).InOrder := by
  refine ⟨demoPair x e, by simp [demoPair, Dict.keys], ?_, ?_⟩
  · simp only [demoPair, List.mem_cons, List.not_mem_nil, or_false]
    rintro p (rfl | rfl)
    · exact demoFloat_ok (by norm_num) hx (by rintro y ⟨⟩; norm_num)
    · exact demoFloat_ok (by norm_num) he (by rintro y ⟨⟩)
  · have hs : Dict.sorted (demoPair x e) = demoPair x e := by
      unfold Dict.sorted
      apply List.mergeSort_of_pairwise
      simp only [demoPair, List.pairwise_cons, List.mem_cons, List.not_mem_nil, or_false,
        forall_eq, decide_eq_true_eq, false_imp_iff, implies_true, and_true, List.Pairwise.nil]
      decide
    unfold SearchSpace.make
    simp only [hs]
    rw [if_neg]
    simp [demoPair, Hp.isFidelity, demoFloat]

theorem demoPair_valued (x e : ℝ) : (demoPair x e).Valued := by
  simp [SearchSpace.Valued, demoPair, Hp.value, demoFloat]

end Verif.Space
