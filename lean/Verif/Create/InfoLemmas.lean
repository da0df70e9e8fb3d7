import Verif.Create.Spec

/-!
# Infos that survive writing and reading
-/

namespace Neps.Create.IVal

theorem eq_refl_of_ne_nan {x : PyFloat} (h : x ≠ .nan) : x.eq x = true := by
  cases x <;> simp_all [PyFloat.eq]

mutual
theorem stored_of_plain : ∀ v : IVal, v.Plain → v.stored = some v
  | .none, _ | .bool _, _ | .int _, _ | .str _, _ => by simp [stored]
  | .float x, _ => by simp [stored]
  | .list l, h => by
    simp only [Plain] at h
    simp [stored, storedList_of_plain l h]
  | .tuple _, h => by simp [Plain] at h
  | .dict d, h => by
    simp only [Plain] at h
    simp [stored, storedDict_of_plain d h]
  | .obj _, h => by simp [Plain] at h
theorem storedList_of_plain : ∀ l : List IVal, PlainList l → storedList l = some l
  | [], _ => by simp [storedList]
  | v :: l, h => by
    simp only [PlainList] at h
    simp [storedList, stored_of_plain v h.1, storedList_of_plain l h.2]
theorem storedDict_of_plain : ∀ l : List (String × IVal), PlainDict l → storedDict l = some l
  | [], _ => by simp [storedDict]
  | (k, v) :: l, h => by
    simp only [PlainDict] at h
    simp [storedDict, stored_of_plain v h.1, storedDict_of_plain l h.2]
end

mutual
theorem pyEq_self : ∀ v : IVal, v.WF → v.Plain → pyEq v v = true
  | .none, _, _ => by simp [pyEq]
  | .bool b, _, _ => by cases b <;> simp [pyEq, numEq, number, PyFloat.eq]
  | .int _, _, _ => by simp [pyEq, numEq, number, PyFloat.eq]
  | .str _, _, _ => by simp [pyEq]
  | .float x, _, h => by
    have : x ≠ .nan := by rintro rfl; simp [Plain] at h
    simp [pyEq, numEq, number, eq_refl_of_ne_nan this]
  | .list l, hw, h => by
    simp only [Plain] at h
    simp only [WF] at hw
    simp [pyEq, pyEqList_self l hw h]
  | .tuple _, _, h => by simp [Plain] at h
  | .dict d, hw, h => by
    simp only [Plain] at h
    simp only [WF] at hw
    simp [pyEq, pyEqDict_self d d hw.2 h (fun p hp => Dict.get_of_mem hw.1 hp)]
  | .obj _, _, h => by simp [Plain] at h
theorem pyEqList_self : ∀ l : List IVal, WFList l → PlainList l → pyEqList l l = true
  | [], _, _ => by simp [pyEqList]
  | v :: l, hw, h => by
    simp only [PlainList] at h
    simp only [WFList] at hw
    simp [pyEqList, pyEq_self v hw.1 h.1, pyEqList_self l hw.2 h.2]
theorem pyEqDict_self : ∀ (l d : List (String × IVal)), WFDict l → PlainDict l →
    (∀ p ∈ l, Dict.get d p.1 = some p.2) → pyEqDict l d = true
  | [], _, _, _, _ => by simp [pyEqDict]
  | (k, v) :: l, d, hw, h, hg => by
    simp only [PlainDict] at h
    simp only [WFDict] at hw
    have h1 := hg (k, v) (by simp)
    simp only at h1
    simp [pyEqDict, h1, pyEq_self v hw.1 h.1,
      pyEqDict_self l d hw.2 h.2 (fun p hp => hg p (by simp [hp]))]
end

mutual
theorem plain_of_same : ∀ (v : IVal), v.WF → ∀ w, v.stored = some w → pyEq w v = true → v.Plain
  | .none, _, _, _, _ | .bool _, _, _, _, _ | .int _, _, _, _, _ | .str _, _, _, _, _ => by
    simp [Plain]
  | .float x, _, w, hs, he => by
    simp only [stored, Option.some.injEq] at hs
    subst hs
    cases x <;> simp_all [Plain, pyEq, numEq, number, PyFloat.eq]
  | .list l, hw, w, hs, he => by
    simp only [stored, Option.map_eq_some_iff] at hs
    obtain ⟨l', hl', rfl⟩ := hs
    simp only [pyEq] at he
    simp only [WF] at hw
    simp only [Plain]
    exact plainList_of_same l hw l' hl' he
  | .tuple l, _, w, hs, he => by
    simp only [stored, Option.map_eq_some_iff] at hs
    obtain ⟨l', hl', rfl⟩ := hs
    simp [pyEq] at he
  | .dict d, hw, w, hs, he => by
    simp only [stored, Option.map_eq_some_iff] at hs
    obtain ⟨d', hd', rfl⟩ := hs
    simp only [pyEq, Bool.and_eq_true] at he
    simp only [WF] at hw
    simp only [Plain]
    exact plainDict_of_same d d hw.2 d' hd' he.2 (fun p hp => Dict.get_of_mem hw.1 hp)
  | .obj _, _, w, hs, _ => by simp [stored] at hs
theorem plainList_of_same : ∀ (l : List IVal), WFList l → ∀ l', storedList l = some l' →
    pyEqList l' l = true → PlainList l
  | [], _, _, _, _ => by simp [PlainList]
  | v :: l, hw, l', hs, he => by
    simp only [WFList] at hw
    simp only [storedList] at hs
    cases h1 : stored v with
    | none => simp [h1] at hs
    | some v' =>
      cases h2 : storedList l with
      | none => simp [h1, h2] at hs
      | some l'' =>
        simp only [h1, h2, Option.some.injEq] at hs
        subst hs
        simp only [pyEqList, Bool.and_eq_true] at he
        simp only [PlainList]
        exact ⟨plain_of_same v hw.1 v' h1 he.1, plainList_of_same l hw.2 l'' h2 he.2⟩
theorem plainDict_of_same : ∀ (l d : List (String × IVal)), WFDict l → ∀ l', storedDict l = some l' →
    pyEqDict l' d = true → (∀ p ∈ l, Dict.get d p.1 = some p.2) → PlainDict l
  | [], _, _, _, _, _, _ => by simp [PlainDict]
  | (k, v) :: l, d, hw, l', hs, he, hg => by
    simp only [WFDict] at hw
    simp only [storedDict] at hs
    cases h1 : stored v with
    | none => simp [h1] at hs
    | some v' =>
      cases h2 : storedDict l with
      | none => simp [h1, h2] at hs
      | some l'' =>
        simp only [h1, h2, Option.some.injEq] at hs
        subst hs
        have hk := hg (k, v) (by simp)
        simp only at hk
        simp only [pyEqDict, hk, Bool.and_eq_true] at he
        simp only [PlainDict]
        exact ⟨plain_of_same v hw.1 v' h1 he.1,
          plainDict_of_same l d hw.2 l'' h2 he.2 (fun p hp => hg p (by simp [hp]))⟩
end

/-- An info is equal to what is read after it was written exactly if it is plain. -/
theorem same_iff_plain {v : IVal} (hw : v.WF) :
    (∃ w, v.stored = some w ∧ pyEq w v = true) ↔ v.Plain :=
  ⟨fun ⟨w, h1, h2⟩ => plain_of_same v hw w h1 h2,
    fun h => ⟨v, stored_of_plain v h, pyEq_self v hw h⟩⟩

mutual
theorem stored_none_iff : ∀ v : IVal, v.stored = Option.none ↔ v.HasObj
  | .none | .bool _ | .int _ | .str _ | .float _ => by simp [stored, HasObj]
  | .obj _ => by simp [stored, HasObj]
  | .list l | .tuple l => by simp [stored, HasObj, storedList_none_iff l]
  | .dict d => by simp [stored, HasObj, storedDict_none_iff d]
theorem storedList_none_iff : ∀ l : List IVal, storedList l = Option.none ↔ HasObjList l
  | [] => by simp [storedList, HasObjList]
  | v :: l => by
    simp only [storedList, HasObjList, ← stored_none_iff v, ← storedList_none_iff l]
    cases stored v <;> cases storedList l <;> simp
theorem storedDict_none_iff : ∀ l : List (String × IVal),
    storedDict l = Option.none ↔ HasObjDict l
  | [] => by simp [storedDict, HasObjDict]
  | (k, v) :: l => by
    simp only [storedDict, HasObjDict, ← stored_none_iff v, ← storedDict_none_iff l]
    cases stored v <;> cases storedDict l <;> simp
end

end Neps.Create.IVal
