import Verif.Space.CompareProps

/-!
# C65, the confidence `set_hyperparameters_from_dict` gives to the defaults it sets
-/

namespace Verif.Space

/-- The spread (for numbers) or weight (for choices) a parameter samples around its default with is
the one of the pair.  An integer parameter samples through its float counterpart. -/
def Hp.Trusts (c : ℝ × ℕ) : Hp → Prop
  | .float p => p.score = c.1
  | .int p => p.score = c.1 ∧ p.floatHp.score = c.1
  | .cat p => p.score = c.2
  | .const _ => True

/-- Two parameters sample around their defaults with the same spread or weight. -/
def Hp.SameTrust : Hp → Hp → Prop
  | .float p, .float q => q.score = p.score
  | .int p, .int q => q.score = p.score ∧ q.floatHp.score = p.floatHp.score
  | .cat p, .cat q => q.score = p.score
  | .const _, .const _ => True
  | _, _ => False

namespace Hp

theorem SameTrust.refl (h : Hp) : h.SameTrust h := by cases h <;> simp [SameTrust]

theorem SameTrust.trans {a b c : Hp} (h : a.SameTrust b) (h' : b.SameTrust c) : a.SameTrust c := by
  cases a <;> cases b <;> cases c <;> simp_all [SameTrust]

theorem SameTrust.trusts {a b : Hp} (h : a.SameTrust b) {c : ℝ × ℕ} (ht : a.Trusts c) :
    b.Trusts c := by
  cases a <;> cases b <;> simp_all [SameTrust, Trusts]

theorem SameTrust.isConst {a b : Hp} (h : a.SameTrust b) : a.IsConst ↔ b.IsConst := by
  cases a <;> cases b <;> simp_all [SameTrust, IsConst]

theorem setValue_trust (h : Hp) (v : Val) : h.SameTrust (h.setValue v).st := by
  cases h <;> cases v <;>
    simp only [Hp.setValue, Call.lift, SameTrust, FloatParam.setValue, IntParam.setValue,
      CatParam.setValue] <;> (try split) <;> (try simp only [and_self]) <;> (try split) <;> simp

theorem setDefault_trust (h : Hp) (v : Val) : h.SameTrust (h.setDefault v).st := by
  cases h <;> cases v <;>
    simp only [Hp.setDefault, Call.lift, SameTrust, FloatParam.setDefault, IntParam.setDefault,
      CatParam.setDefault] <;> (try split_ifs) <;> simp

theorem unsetValue_trust (h : Hp) : h.SameTrust h.unsetValue.st := by
  cases h <;> simp [Hp.unsetValue, Call.lift, SameTrust, FloatParam.setValue, IntParam.setValue,
    CatParam.setValue]

theorem unsetDefault_trust (h : Hp) : h.SameTrust h.unsetDefault.st := by
  cases h <;> simp [Hp.unsetDefault, Call.lift, SameTrust, FloatParam.setDefault,
    IntParam.setDefault, CatParam.setDefault]

theorem setConfidence_trust (h : Hp) (hc : ¬ h.IsConst) (s : Option (ℝ × ℕ)) :
    ((h.setConfidence s).raised = true ↔ s = none) ∧
      ∀ c, s = some c → (h.setConfidence s).st.Trusts c := by
  cases h <;> cases s <;>
    simp_all [Hp.setConfidence, Call.lift, Trusts, FloatParam.setConfidence, IntParam.setConfidence,
      CatParam.setConfidence, IsConst]

end Hp

namespace SearchSpace

/-- What `set_hyperparameters_from_dict` is to do to the confidence in the default of a parameter the
dictionary mentions: with a new default comes the confidence that was passed, otherwise it stays. -/
def Confided (o : SetOpts) (h q : Hp) : Prop :=
  (o.defaults = true → ∃ c, o.confidence = some c ∧ q.Trusts c) ∧ (o.defaults = false → h.SameTrust q)

theorem andThen_trust {c : Call Hp} {f : Hp → Call Hp} (hf : ∀ g : Hp, g.SameTrust (f g).st) :
    c.st.SameTrust (c.andThen f).st := by
  unfold Call.andThen
  split
  · exact Hp.SameTrust.refl _
  · exact hf _

theorem andThen_raised {c : Call Hp} {f : Hp → Call Hp} (h : (c.andThen f).raised = false) :
    c.raised = false ∧ c.andThen f = f c.st := by
  unfold Call.andThen at h ⊢
  split at h
  · simp_all
  · rename_i hc
    exact ⟨by simpa using hc, if_neg hc⟩

theorem setHp_confided (o : SetOpts) {h : Hp} (hc : ¬ h.IsConst) (v : Val)
    (hr : (setHp o h v).raised = false) : Confided o h (setHp o h v).st := by
  have hunf : setHp o h v = ((((((⟨h, false⟩ : Call Hp)
      |>.andThen fun h => if o.deleteDefaults then h.unsetDefault else ⟨h, false⟩)
      |>.andThen fun h => if o.deleteValues then h.unsetValue else ⟨h, false⟩)
      |>.andThen fun h => if o.defaults then h.setDefault v else ⟨h, false⟩)
      |>.andThen fun h => if o.defaults then h.setConfidence o.confidence else ⟨h, false⟩)
      |>.andThen fun h => if o.values then h.setValue v else ⟨h, false⟩) := by
    cases h <;> first | rfl | exact absurd trivial hc
  rw [hunf] at hr ⊢
  have t5 : ∀ g : Hp, g.SameTrust (if o.values then g.setValue v else ⟨g, false⟩ : Call Hp).st := by
    intro g; split
    · exact Hp.setValue_trust g v
    · exact Hp.SameTrust.refl g
  have t3 : ∀ g : Hp, g.SameTrust (if o.defaults then g.setDefault v else ⟨g, false⟩ : Call Hp).st := by
    intro g; split
    · exact Hp.setDefault_trust g v
    · exact Hp.SameTrust.refl g
  have t2 : ∀ g : Hp, g.SameTrust (if o.deleteValues then g.unsetValue else ⟨g, false⟩ : Call Hp).st := by
    intro g; split
    · exact Hp.unsetValue_trust g
    · exact Hp.SameTrust.refl g
  have t1 : ∀ g : Hp,
      g.SameTrust (if o.deleteDefaults then g.unsetDefault else ⟨g, false⟩ : Call Hp).st := by
    intro g; split
    · exact Hp.unsetDefault_trust g
    · exact Hp.SameTrust.refl g
  have T := ((andThen_trust (c := ⟨h, false⟩) t1).trans (andThen_trust t2)).trans (andThen_trust t3)
  obtain ⟨r4, e5⟩ := andThen_raised hr
  obtain ⟨_, e4⟩ := andThen_raised r4
  rw [e5]
  rw [e4] at r4 ⊢
  generalize Call.st (Call.andThen (Call.andThen (Call.andThen ⟨h, false⟩ _) _) _) = g at T r4 ⊢
  constructor
  · intro hd
    simp only [hd, if_true] at r4 ⊢
    obtain ⟨k1, k2⟩ := Hp.setConfidence_trust g (T.isConst.not.mp hc) o.confidence
    rcases ho : o.confidence with _ | c
    · rw [k1.mpr ho] at r4; simp at r4
    · refine ⟨c, rfl, ?_⟩
      rw [← ho]
      exact (t5 _).trusts (k2 c ho)
  · intro hd
    simp only [hd, Bool.false_eq_true, if_false] at r4 ⊢
    exact T.trans (t5 g)

/-- **C65, the confidence**: when setting the parameters from a dictionary succeeds and new defaults
were asked for, the confidence passed is one there is, and every mentioned parameter other than a
constant now samples around its default with it.  When no new defaults were asked for, the confidence
in every parameter's default is what it was. -/
theorem C65_confidence (s : SearchSpace) (o : SetOpts) (new : Dict Val)
    (hr : (s.setFromDict o new).raised = false) :
    List.Forall₂ (fun p q => q.1 = p.1 ∧
      ∀ v, new.get? p.1 = some v → ¬ p.2.IsConst → Confided o p.2 q.2) s (s.setFromDict o new).st := by
  unfold setFromDict at hr ⊢
  split at hr
  · simp at hr
  · rename_i hn
    rw [if_neg hn]
    clear hn
    induction s with
    | nil => exact .nil
    | cons p s ih =>
      obtain ⟨k, a⟩ := p
      unfold setLoop at hr ⊢
      cases hg : new.get? k with
      | none =>
        simp only [hg] at hr ⊢
        exact .cons ⟨rfl, by simp [hg]⟩ (ih hr)
      | some v =>
        simp only [hg] at hr ⊢
        split at hr
        · simp at hr
        · rename_i hc
          rw [if_neg hc]
          refine .cons ⟨rfl, ?_⟩ (ih hr)
          intro w _ hk
          exact setHp_confided o hk v (by simpa using hc)

/-- **C65, no such confidence**: a confidence that does not exist is rejected as soon as the
dictionary sets the default of any parameter that is not a constant. -/
theorem C65_confidence_rejected (s : SearchSpace) (o : SetOpts) (new : Dict Val)
    (hd : o.defaults = true) (hno : o.confidence = none) (k : String) (h : Hp) (v : Val)
    (hk : (k, h) ∈ s) (hc : ¬ h.IsConst) (hv : new.get? k = some v) :
    (s.setFromDict o new).raised = true := by
  rcases hr : (s.setFromDict o new).raised with _ | _
  · exfalso
    have H := C65_confidence s o new hr
    have : ∃ q ∈ (s.setFromDict o new).st, q.1 = k ∧ ∀ v, new.get? k = some v → ¬ h.IsConst →
        Confided o h q.2 := by
      clear hr
      generalize (s.setFromDict o new).st = t at H
      induction H with
      | nil => simp at hk
      | cons ha _ ih =>
        rcases List.mem_cons.mp hk with rfl | hk
        · exact ⟨_, by simp, ha.1, ha.2⟩
        · obtain ⟨q, hq, r⟩ := ih hk
          exact ⟨q, by simp [hq], r⟩
    obtain ⟨q, _, _, hq⟩ := this
    obtain ⟨c, hcf, _⟩ := (hq v hv hc).1 hd
    rw [hno] at hcf
    exact absurd hcf (by simp)
  · rfl

/-- Setting the default of the activation function of the demonstration space with confidence "high"
gives its choice the weight 6 (`CategoricalParameter.DEFAULT_CONFIDENCE_SCORES`); a confidence that
does not exist is rejected. -/
example : ((demoSpace.setFromDict ⟨true, true, true, true, false, some (1, 6)⟩
    [("act", .str "gelu")]).raised = false) ∧
    (demoSpace.setFromDict ⟨true, true, true, true, false, none⟩ [("act", .str "gelu")]).raised = true := by
  constructor
  · exact (C65_set_from_dict demoSpace demoSpace_inOrder.ok _ _ (.inl rfl) (by simp) (by
      simp only [demoSpace, List.mem_cons, List.not_mem_nil, or_false]
      rintro p (rfl | rfl | rfl) v hv
      · simp only [Dict.get?, List.find?_cons_of_pos, decide_true, Option.map_some,
          Option.some.injEq] at hv
        subst hv
        exact ⟨by simp [Hp.IsConst], fun _ => by simp [Hp.Accepts, demoAct]⟩
      · simp [Dict.get?] at hv
      · simp [Dict.get?] at hv)).1
  · exact C65_confidence_rejected demoSpace _ _ rfl rfl "act" (.cat demoAct) (.str "gelu")
      (by simp [demoSpace]) (by simp [Hp.IsConst]) (by simp [Dict.get?])

end SearchSpace

end Verif.Space
