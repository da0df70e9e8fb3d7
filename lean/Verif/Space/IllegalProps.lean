import Verif.Space.ConfidenceProps

/-!
# C65, `set_hyperparameters_from_dict` rejects values the parameters do not have
-/

namespace Verif.Space

/-- The values a parameter can be set to: those its declaration admits; for an integer parameter also the
numbers that round to one of them. -/
def Hp.Takes (h : Hp) (v : Val) : Prop :=
  match h with
  | .float p => ∃ x, v = .num x ∧ p.lower ≤ x ∧ x ≤ p.upper
  | .int p => ∃ x, v = .num x ∧ p.lower ≤ rnd x ∧ rnd x ≤ p.upper
  | .cat p => v ∈ p.choices
  | .const p => v = p.value

/-- The declared bounds or choices are the same, and so are the bounds of the float counterpart of an
integer parameter. -/
def Hp.SameBox : Hp → Hp → Prop
  | .float p, .float q => q.lower = p.lower ∧ q.upper = p.upper
  | .int p, .int q => q.lower = p.lower ∧ q.upper = p.upper ∧ q.floatHp.lower = p.floatHp.lower ∧
      q.floatHp.upper = p.floatHp.upper
  | .cat p, .cat q => q.choices = p.choices
  | .const _, .const _ => True
  | _, _ => False

namespace Hp

theorem SameBox.refl (h : Hp) : h.SameBox h := by cases h <;> simp [SameBox]

theorem SameBox.trans {a b c : Hp} (h : a.SameBox b) (h' : b.SameBox c) : a.SameBox c := by
  cases a <;> cases b <;> cases c <;> simp_all [SameBox]

theorem float_setValue_box (p : FloatParam) (v : Option ℝ) :
    (p.setValue v).st.lower = p.lower ∧ (p.setValue v).st.upper = p.upper := by
  unfold FloatParam.setValue
  split
  · simp
  · split <;> simp

theorem float_setDefault_box (p : FloatParam) (v : Option ℝ) :
    (p.setDefault v).st.lower = p.lower ∧ (p.setDefault v).st.upper = p.upper := by
  unfold FloatParam.setDefault
  split
  · simp
  · split <;> simp

theorem setDefault_box (h : Hp) (v : Val) : h.SameBox (h.setDefault v).st := by
  cases h with
  | float p =>
    cases v with
    | num x => exact float_setDefault_box p (some x)
    | str s => exact .refl _
  | int p =>
    cases v with
    | num x =>
      exact ⟨rfl, rfl, float_setDefault_box p.floatHp (some ((rnd x : ℤ) : ℝ))⟩
    | str s => exact .refl _
  | cat p =>
    simp only [Hp.setDefault, Call.lift, SameBox, CatParam.setDefault]
    split <;> simp
  | const p => exact .refl _

theorem unsetDefault_box (h : Hp) : h.SameBox h.unsetDefault.st := by
  cases h with
  | int p => exact ⟨rfl, rfl, float_setDefault_box p.floatHp none⟩
  | _ => simp [Hp.unsetDefault, Call.lift, SameBox, FloatParam.setDefault, CatParam.setDefault]

theorem unsetValue_box (h : Hp) : h.SameBox h.unsetValue.st := by
  cases h with
  | int p => exact ⟨rfl, rfl, float_setValue_box p.floatHp none⟩
  | const p => exact trivial
  | _ => simp [Hp.unsetValue, Call.lift, SameBox, FloatParam.setValue, CatParam.setValue]

theorem setConfidence_box (h : Hp) (s : Option (ℝ × ℕ)) : h.SameBox (h.setConfidence s).st := by
  cases h <;> cases s <;>
    simp [Hp.setConfidence, Call.lift, SameBox, FloatParam.setConfidence, IntParam.setConfidence,
      CatParam.setConfidence]

/-- Whole numbers between the bounds of the float counterpart are between the declared bounds. -/
theorem int_box {p q : IntParam} (hp : IntParam.Inv p) (h : SameBox (.int p) (.int q)) {n : ℤ}
    (h0 : q.floatHp.lower ≤ n) (h1 : (n : ℝ) ≤ q.floatHp.upper) : p.lower ≤ n ∧ n ≤ p.upper := by
  obtain ⟨_, _, e3, e4⟩ := h
  rw [e3] at h0
  rw [e4] at h1
  have := hp.rnd_mem ⟨h0, h1⟩
  rwa [rnd_intCast] at this

theorem setValue_takes {h g : Hp} (hok : h.Ok) (hc : ¬ h.IsConst) (hb : h.SameBox g) (v : Val)
    (hr : (g.setValue v).raised = false) : h.Takes v := by
  cases h with
  | float p =>
    cases g <;> simp only [SameBox] at hb
    rename_i q
    cases v with
    | str s => simp [Hp.setValue] at hr
    | num x =>
      simp only [Hp.setValue, Call.lift, FloatParam.setValue] at hr
      split at hr
      · simp at hr
      · rename_i hx
        rw [not_not, hb.1, hb.2] at hx
        exact ⟨x, rfl, hx⟩
  | int p =>
    cases g with
    | int q =>
      cases v with
      | str s => simp [Hp.setValue] at hr
      | num x =>
        simp only [Hp.setValue, Call.lift, IntParam.setValue] at hr
        split at hr
        · simp at hr
        · refine ⟨x, rfl, ?_⟩
          simp only [FloatParam.setValue] at hr
          split at hr
          · simp at hr
          · rename_i hx
            rw [not_not] at hx
            exact int_box hok.used.inv hb hx.1 hx.2
    | _ => exact hb.elim
  | cat p =>
    cases g <;> simp only [SameBox] at hb
    rename_i q
    simp only [Hp.setValue, Call.lift, CatParam.setValue] at hr
    split at hr
    · simp at hr
    · rename_i i hi
      by_contra hv
      rw [hb, CatParam.index_none hv] at hi
      simp at hi
  | const p => exact absurd trivial hc

theorem setDefault_takes {h g : Hp} (hok : h.Ok) (hc : ¬ h.IsConst) (hb : h.SameBox g) (v : Val)
    (hr : (g.setDefault v).raised = false) : h.Takes v := by
  cases h with
  | float p =>
    cases g <;> simp only [SameBox] at hb
    rename_i q
    cases v with
    | str s => simp [Hp.setDefault] at hr
    | num x =>
      simp only [Hp.setDefault, Call.lift, FloatParam.setDefault] at hr
      split at hr
      · simp at hr
      · rename_i hx
        rw [not_not, hb.1, hb.2] at hx
        exact ⟨x, rfl, hx⟩
  | int p =>
    cases g with
    | int q =>
      cases v with
      | str s => simp [Hp.setDefault] at hr
      | num x =>
        simp only [Hp.setDefault, Call.lift, IntParam.setDefault, FloatParam.setDefault] at hr
        refine ⟨x, rfl, ?_⟩
        split at hr
        · simp at hr
        · rename_i hx
          rw [not_not] at hx
          exact int_box hok.used.inv hb hx.1 hx.2
    | _ => exact hb.elim
  | cat p =>
    cases g <;> simp only [SameBox] at hb
    rename_i q
    simp only [Hp.setDefault, Call.lift, CatParam.setDefault] at hr
    split at hr
    · simp at hr
    · rename_i hi
      rw [not_not, hb] at hi
      exact hi
  | const p => exact absurd trivial hc

end Hp

namespace SearchSpace

theorem andThen_box {c : Call Hp} {f : Hp → Call Hp} (hf : ∀ g : Hp, g.SameBox (f g).st) :
    c.st.SameBox (c.andThen f).st := by
  unfold Call.andThen
  split
  · exact Hp.SameBox.refl _
  · exact hf _

theorem setHp_takes (o : SetOpts) {h : Hp} (hok : h.Ok) (hc : ¬ h.IsConst) (v : Val)
    (hvd : o.values = true ∨ o.defaults = true)
    (hr : (setHp o h v).raised = false) : h.Takes v := by
  have hunf : setHp o h v = ((((((⟨h, false⟩ : Call Hp)
      |>.andThen fun h => if o.deleteDefaults then h.unsetDefault else ⟨h, false⟩)
      |>.andThen fun h => if o.deleteValues then h.unsetValue else ⟨h, false⟩)
      |>.andThen fun h => if o.defaults then h.setDefault v else ⟨h, false⟩)
      |>.andThen fun h => if o.defaults then h.setConfidence o.confidence else ⟨h, false⟩)
      |>.andThen fun h => if o.values then h.setValue v else ⟨h, false⟩) := by
    cases h <;> first | rfl | exact absurd trivial hc
  rw [hunf] at hr
  have t1 : ∀ g : Hp,
      g.SameBox (if o.deleteDefaults then g.unsetDefault else ⟨g, false⟩ : Call Hp).st := by
    intro g; split
    · exact Hp.unsetDefault_box g
    · exact Hp.SameBox.refl g
  have t2 : ∀ g : Hp, g.SameBox (if o.deleteValues then g.unsetValue else ⟨g, false⟩ : Call Hp).st := by
    intro g; split
    · exact Hp.unsetValue_box g
    · exact Hp.SameBox.refl g
  have t3 : ∀ g : Hp, g.SameBox (if o.defaults then g.setDefault v else ⟨g, false⟩ : Call Hp).st := by
    intro g; split
    · exact Hp.setDefault_box g v
    · exact Hp.SameBox.refl g
  have t4 : ∀ g : Hp,
      g.SameBox (if o.defaults then g.setConfidence o.confidence else ⟨g, false⟩ : Call Hp).st := by
    intro g; split
    · exact Hp.setConfidence_box g _
    · exact Hp.SameBox.refl g
  have T2 := (andThen_box (c := ⟨h, false⟩) t1).trans (andThen_box t2)
  have T4 := (T2.trans (andThen_box t3)).trans (andThen_box t4)
  obtain ⟨r4, e5⟩ := andThen_raised hr
  obtain ⟨r3, _⟩ := andThen_raised r4
  obtain ⟨_, e3⟩ := andThen_raised r3
  rw [e5] at hr
  rw [e3] at r3
  rcases hvd with hv | hd
  · simp only [hv, if_true] at hr
    exact Hp.setValue_takes hok hc T4 v hr
  · simp only [hd, if_true] at r3
    exact Hp.setDefault_takes hok hc T2 v r3

/-- **C65, illegal values**: a value outside the range or the choices of a parameter that is not a
constant is rejected, wherever in the dictionary it is and whatever the options are. -/
theorem C65_illegal_rejected (s : SearchSpace) (h : ∀ p ∈ s, p.2.Ok) (o : SetOpts) (new : Dict Val)
    (k : String) (p : Hp) (v : Val) (hk : (k, p) ∈ s) (hc : ¬ p.IsConst) (hv : new.get? k = some v)
    (hno : ¬ p.Takes v) : (s.setFromDict o new).raised = true := by
  unfold setFromDict
  split
  · rfl
  · rename_i hn
    have hvd : o.values = true ∨ o.defaults = true := by
      rcases h1 : o.values with _ | _
      · right
        rcases h2 : o.defaults with _ | _
        · exact absurd ⟨h1, h2⟩ hn
        · rfl
      · exact .inl rfl
    clear hn
    induction s with
    | nil => simp at hk
    | cons q s ih =>
      obtain ⟨k', g⟩ := q
      unfold setLoop
      rcases List.mem_cons.mp hk with he | hk
      · cases he
        rw [hv]
        rcases hr : (setHp o p v).raised with _ | _
        · exact absurd (setHp_takes o (h (k, p) (by simp)) hc v hvd hr) hno
        · simp [hr]
      · have := ih (fun p hp => h p (by simp [hp])) hk
        cases new.get? k' with
        | none => exact this
        | some w =>
          simp only
          split
          · rfl
          · exact this

/-- Non-vacuity: a text for the activation function of the demonstration space that is not among its
choices. -/
example : (demoSpace.setFromDict ⟨true, true, true, true, false, some (1, 6)⟩
    [("act", .str "sine")]).raised = true :=
  C65_illegal_rejected demoSpace demoSpace_inOrder.ok _ _ "act" (.cat demoAct) (.str "sine")
    (by simp [demoSpace]) (by simp [Hp.IsConst]) (by simp [Dict.get?])
    (by simp [Hp.Takes, demoAct])

end SearchSpace

end Verif.Space
