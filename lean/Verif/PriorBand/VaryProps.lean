import Verif.PriorBand.Vary
import Verif.Space.CompareProps

/-!
# Mutants of the incumbent and crossovers with it (C84)
-/

namespace Verif.PriorBand

open Verif.Space SearchSpace

/-- The two configurations can be told apart: some parameter, other than the fidelity unless
`fid`, has different values to eight digits. -/
def Differs (fid : Bool) (s t : SearchSpace) : Prop :=
  ∃ k a b, Dict.get? s k = some a ∧ Dict.get? t k = some b ∧ (a.isFidelity = true → fid = true) ∧
    ¬ SameValue 8 a b

/-! ## Lemmas -/

theorem pointwise_or_differs (fid : Bool) {s t : SearchSpace} (hs : s.InOrder) (ht : t.InOrder)
    (hst : s.Pointwise (fun _ _ _ => True) t) :
    s.Pointwise (fun _ a b => (a.isFidelity = true ∧ fid = false) ∨ SameValue 8 a b) t ∨
      Differs fid s t := by
  by_cases hd : Differs fid s t
  · exact Or.inr hd
  · left
    refine forall₂_imp_mem hst ?_
    rintro ⟨k, a⟩ ha ⟨k', b⟩ hb ⟨hk, hdecl, _⟩
    simp only at hk hdecl ⊢
    subst hk
    refine ⟨rfl, hdecl, ?_⟩
    by_contra hc
    rw [not_or] at hc
    apply hd
    refine ⟨k', a, b, Dict.get?_of_mem hs.nodup ha, Dict.get?_of_mem ht.nodup hb, ?_, hc.2⟩
    intro hf
    cases fid with
    | true => rfl
    | false => exact absurd ⟨hf, rfl⟩ hc.1

theorem not_pointwise_of_differs (fid : Bool) {s t : SearchSpace} (hd : Differs fid s t) :
    ¬ s.Pointwise (fun _ a b => (a.isFidelity = true ∧ fid = false) ∨ SameValue 8 a b) t := by
  rintro h
  obtain ⟨k, a, b, ha, hb, hf, hn⟩ := hd
  obtain ⟨b', hb', _, _, h3⟩ := forall₂_get? h (fun p q h => h.1) ha
  rw [hb] at hb'
  simp only [Option.some.injEq] at hb'
  subst hb'
  rcases h3 with ⟨h4, h5⟩ | h4
  · rw [hf h4] at h5; cases h5
  · exact hn h4

/-- The comparison of two complete configurations of one space. -/
theorem equal_false_iff (isFloat : Val → Bool) {s t : SearchSpace} (hs : s.InOrder) (ht : t.InOrder)
    (hst : s.Pointwise (fun _ _ _ => True) t) (hsv : s.Valued) (htv : t.Valued) (fid : Bool) :
    (s.isEqualValue isFloat t fid 8 = some false ∧ Differs fid s t) ∨
      (s.isEqualValue isFloat t fid 8 = some true ∧ ¬ Differs fid s t) := by
  obtain ⟨r, hr, hri⟩ := C64_equal_iff isFloat s t hs ht hst hsv htv fid 8
  rcases pointwise_or_differs fid hs ht hst with h | h
  · right
    rw [hr, hri.mpr h]
    exact ⟨rfl, fun hd => not_pointwise_of_differs fid hd h⟩
  · left
    have : r = false := by
      rw [← Bool.not_eq_true]
      intro h'
      exact not_pointwise_of_differs fid h (hri.mp h')
    rw [hr, this]
    exact ⟨rfl, h⟩

open Classical in
/-- What `local_mutation` does to a parameter in one attempt. -/
def Varied (mutateCategoricals : Bool) (d : String → MutDraw) (n : String) (a b : Hp) : Prop :=
  if a.isFidelity = false ∧ (d n).coin = true ∧ ¬ a.IsConst ∧ (a.IsCat → mutateCategoricals = true)
  then b.value ≠ a.value ∧ ∃ v, b.value = some v ∧ a.Accepts v
  else b.value = a.value

theorem localMutateHp_ok {mc : Bool} {d : String → MutDraw} {n : String} {h q : Hp} (hok : h.Ok)
    (hq : localMutateHp mc (d n) h = some q) :
    h.SameDecl q ∧ q.Ok ∧ Varied mc d n h q := by
  have hclone : h.clone = some q → h.SameDecl q ∧ q.Ok ∧ q.value = h.value := by
    intro hc
    obtain ⟨q', hq', h1, h2, h3⟩ := Hp.clone_ok hok
    rw [hc] at hq'
    simp only [Option.some.injEq] at hq'
    subst hq'
    exact ⟨h1, h3, h2⟩
  unfold localMutateHp at hq
  unfold Varied
  by_cases hf : h.isFidelity = true ∨ (d n).coin = false
  · rw [if_pos hf] at hq
    obtain ⟨h1, h2, h3⟩ := hclone hq
    refine ⟨h1, h2, ?_⟩
    rw [if_neg]
    · exact h3
    · rintro ⟨h4, h5, _⟩
      rcases hf with hf | hf
      · rw [hf] at h4; cases h4
      · rw [hf] at h5; cases h5
  · rw [if_neg hf] at hq
    rw [not_or, Bool.not_eq_true, Bool.not_eq_false] at hf
    cases h with
    | cat p =>
      simp only at hq
      by_cases hm : mc = true
      · rw [if_pos hm] at hq
        obtain ⟨h1, h2, h3, h4, h5⟩ := Hp.mutate_ok hok hq
        refine ⟨h1, h2, ?_⟩
        rw [if_pos ⟨hf.1, hf.2, by simp [Hp.IsConst], fun _ => hm⟩]
        exact ⟨h3, h5⟩
      · rw [if_neg hm] at hq
        obtain ⟨h1, h2, h3⟩ := hclone hq
        refine ⟨h1, h2, ?_⟩
        rw [if_neg]
        · exact h3
        · rintro ⟨_, _, _, h6⟩
          exact hm (h6 (by simp [Hp.IsCat]))
    | const p =>
      obtain ⟨h1, h2, h3⟩ := hclone hq
      refine ⟨h1, h2, ?_⟩
      rw [if_neg]
      · exact h3
      · rintro ⟨_, _, h6, _⟩
        exact h6 (by simp [Hp.IsConst])
    | float p =>
      obtain ⟨h1, h2, h3, h4, h5⟩ := Hp.mutate_ok hok hq
      refine ⟨h1, h2, ?_⟩
      rw [if_pos ⟨hf.1, hf.2, by simp [Hp.IsConst], by simp [Hp.IsCat]⟩]
      exact ⟨h3, h5⟩
    | int p =>
      obtain ⟨h1, h2, h3, h4, h5⟩ := Hp.mutate_ok hok hq
      refine ⟨h1, h2, ?_⟩
      rw [if_pos ⟨hf.1, hf.2, by simp [Hp.IsConst], by simp [Hp.IsCat]⟩]
      exact ⟨h3, h5⟩

theorem Pointwise.valued {R : String → Hp → Hp → Prop} {s t : SearchSpace} (h : s.Pointwise R t)
    (hsv : s.Valued) (hR : ∀ n a b, R n a b → a.value ≠ none → b.value ≠ none) : t.Valued := by
  intro q hq
  obtain ⟨p, hp, _, _, h3⟩ := forall₂_mem_right h q hq
  exact hR _ _ _ h3 (hsv p hp)

theorem localAttempt_ok {mc : Bool} {s : SearchSpace} (h : s.InOrder) {d : String → MutDraw}
    {t : SearchSpace} (ht : localAttempt mc s d = some t) :
    t.InOrder ∧ s.Pointwise (Varied mc d) t := by
  unfold localAttempt at ht
  rw [Option.bind_eq_bind, Option.bind_eq_some_iff] at ht
  obtain ⟨m, hm, ht⟩ := ht
  have hall : List.Forall₂ (fun p q : String × Hp => (q.1 = p.1 ∧ p.2.SameDecl q.2 ∧
      Varied mc d p.1 p.2 q.2) ∧ q.2.Ok) s m := by
    apply forall₂_imp_mem (mapM_forall₂ hm)
    intro p hp q _ hpq
    simp only [Option.map_eq_some_iff] at hpq
    obtain ⟨q', hq', rfl⟩ := hpq
    obtain ⟨h1, h2, h3⟩ := localMutateHp_ok (h.ok p hp) hq'
    exact ⟨⟨rfl, h1, h3⟩, h2⟩
  have hdecl : List.Forall₂ (fun p q : String × Hp => q.1 = p.1 ∧ p.2.SameDecl q.2) s m :=
    hall.imp fun _ _ h => ⟨h.1.1, h.1.2.1⟩
  rw [h.make hdecl] at ht
  simp only [Option.some.injEq] at ht
  subst ht
  refine ⟨h.of hdecl ?_, hall.imp fun _ _ h => h.1⟩
  intro q hq
  obtain ⟨p, _, hpq⟩ := forall₂_mem_right hall q hq
  exact hpq.2

theorem Varied.valued {mc : Bool} {d : String → MutDraw} {n : String} {a b : Hp}
    (h : Varied mc d n a b) (ha : a.value ≠ none) : b.value ≠ none := by
  unfold Varied at h
  split_ifs at h
  · obtain ⟨_, v, hv, _⟩ := h; simp [hv]
  · rw [h]; exact ha

/-! ## C84: mutation -/

/-- **C84, mutation**: the result is a configuration of the same space.  Either it differs from
the given one, and then only in parameters that one attempt has chosen; constants and the fidelity
keep their values, and so do categorical parameters unless they may be mutated; a chosen parameter
has another, legal, value.  Or it is an exact copy, and then in no attempt a difference to eight
digits came about. -/
theorem C84_mutation (isFloat : Val → Bool) (s : SearchSpace) (h : s.InOrder) (hsv : s.Valued)
    (patience : ℕ) (mc : Bool) (d : ℕ → String → MutDraw) (t : SearchSpace)
    (ht : localMutation isFloat s patience mc d = some t) :
    t.InOrder ∧ t.Valued ∧
      ((∃ i < patience, s.Pointwise (Varied mc (d i)) t ∧ Differs false s t ∧
          ∀ j < i, ∃ u, localAttempt mc s (d j) = some u ∧ ¬ Differs false s u) ∨
        (s.Pointwise (fun _ a b => b.value = a.value) t ∧
          ∀ j < patience, ∃ u, localAttempt mc s (d j) = some u ∧ ¬ Differs false s u)) := by
  unfold localMutation at ht
  have gen : ∀ n i, i + n = patience → localMutationGo isFloat mc s d n i = some t →
      (∀ j < i, ∃ u, localAttempt mc s (d j) = some u ∧ ¬ Differs false s u) →
      t.InOrder ∧ t.Valued ∧
      ((∃ i < patience, s.Pointwise (Varied mc (d i)) t ∧ Differs false s t ∧
          ∀ j < i, ∃ u, localAttempt mc s (d j) = some u ∧ ¬ Differs false s u) ∨
        (s.Pointwise (fun _ a b => b.value = a.value) t ∧
          ∀ j < patience, ∃ u, localAttempt mc s (d j) = some u ∧ ¬ Differs false s u)) := by
    intro n
    induction n with
    | zero =>
      intro i hi hg hprev
      simp only [localMutationGo] at hg
      obtain ⟨c, hc, hco, hcp⟩ := SearchSpace.clone_ok h
      rw [hg] at hc
      simp only [Option.some.injEq] at hc
      subst hc
      refine ⟨hco, Pointwise.valued hcp hsv (fun n a b h1 h2 => by rw [h1]; exact h2), Or.inr ⟨hcp, ?_⟩⟩
      intro j hj
      exact hprev j (by omega)
    | succ n ih =>
      intro i hi hg hprev
      simp only [localMutationGo, Option.bind_eq_bind] at hg
      rw [Option.bind_eq_some_iff] at hg
      obtain ⟨u, hu, hg⟩ := hg
      obtain ⟨huo, hup⟩ := localAttempt_ok h hu
      have huv : u.Valued := Pointwise.valued hup hsv fun _ _ _ h1 h2 => h1.valued h2
      have hst : s.Pointwise (fun _ _ _ => True) u :=
        List.Forall₂.imp (fun _ _ h => ⟨h.1, h.2.1, trivial⟩) hup
      rcases equal_false_iff isFloat h huo hst hsv huv false with ⟨he, hd⟩ | ⟨he, hd⟩
      · rw [he] at hg
        simp only [Option.bind_some, Bool.false_eq_true, if_false, Option.pure_def,
          Option.some.injEq] at hg
        subst hg
        exact ⟨huo, huv, Or.inl ⟨i, by omega, hup, hd, hprev⟩⟩
      · rw [he] at hg
        simp only [Option.bind_some, if_true] at hg
        refine ih (i + 1) (by omega) hg ?_
        intro j hj
        by_cases hji : j = i
        · subst hji; exact ⟨u, hu, hd⟩
        · exact hprev j (by omega)
  exact gen patience 0 (by omega) ht (by omega)

/-- **C84, mutation**: if the mutation of a parameter does not fail, the mutation of the
configuration does not either, whatever the random numbers. -/
theorem C84_mutation_total (isFloat : Val → Bool) (s : SearchSpace) (h : s.InOrder)
    (hsv : s.Valued) (patience : ℕ) (mc : Bool) (d : ℕ → String → MutDraw)
    (hd : ∀ i < patience, ∀ p ∈ s, p.2.isFidelity = false → (d i p.1).coin = true → ¬ p.2.IsConst →
      ∃ q, p.2.mutate (d i p.1).normals (d i p.1).index = some q) :
    ∃ t, localMutation isFloat s patience mc d = some t := by
  have hone : ∀ i < patience, ∃ u, localAttempt mc s (d i) = some u := by
    intro i hi
    have : ∃ m, s.mapM (fun p : String × Hp =>
        (localMutateHp mc (d i p.1) p.2).map fun q => (p.1, q)) = some m := by
      apply mapM_total
      intro p hp
      obtain ⟨c, hc, _⟩ := Hp.clone_ok (h.ok p hp)
      have hm := hd i hi p hp
      have : ∃ q, localMutateHp mc (d i p.1) p.2 = some q := by
        unfold localMutateHp
        by_cases hf : p.2.isFidelity = true ∨ (d i p.1).coin = false
        · rw [if_pos hf]; exact ⟨c, hc⟩
        · rw [if_neg hf]
          rw [not_or, Bool.not_eq_true, Bool.not_eq_false] at hf
          have hm := hm hf.1 hf.2
          cases hp2 : p.2 with
          | cat q =>
            rw [hp2] at hm hc
            simp only
            split_ifs
            · exact hm (by simp [Hp.IsConst])
            · exact ⟨c, hc⟩
          | const q => rw [hp2] at hc; exact ⟨c, hc⟩
          | float q => rw [hp2] at hm; exact hm (by simp [Hp.IsConst])
          | int q => rw [hp2] at hm; exact hm (by simp [Hp.IsConst])
      obtain ⟨q, hq⟩ := this
      exact ⟨(p.1, q), by simp [hq]⟩
    obtain ⟨m, hm⟩ := this
    have hall : List.Forall₂ (fun p q : String × Hp => q.1 = p.1 ∧ p.2.SameDecl q.2) s m := by
      apply forall₂_imp_mem (mapM_forall₂ hm)
      intro p hp q _ hpq
      simp only [Option.map_eq_some_iff] at hpq
      obtain ⟨q', hq', rfl⟩ := hpq
      obtain ⟨h1, _⟩ := localMutateHp_ok (h.ok p hp) hq'
      exact ⟨rfl, h1⟩
    exact ⟨m, by unfold localAttempt; rw [hm]; exact h.make hall⟩
  unfold localMutation
  have gen : ∀ n i, i + n = patience → ∃ t, localMutationGo isFloat mc s d n i = some t := by
    intro n
    induction n with
    | zero =>
      intro i _
      obtain ⟨c, hc, _⟩ := SearchSpace.clone_ok h
      exact ⟨c, hc⟩
    | succ n ih =>
      intro i hi
      obtain ⟨u, hu⟩ := hone i (by omega)
      obtain ⟨huo, hup⟩ := localAttempt_ok h hu
      have huv : u.Valued := Pointwise.valued hup hsv fun _ _ _ h1 h2 => h1.valued h2
      have hst : s.Pointwise (fun _ _ _ => True) u :=
        List.Forall₂.imp (fun _ _ h => ⟨h.1, h.2.1, trivial⟩) hup
      simp only [localMutationGo, Option.bind_eq_bind, hu, Option.bind_some]
      rcases equal_false_iff isFloat h huo hst hsv huv false with ⟨he, _⟩ | ⟨he, _⟩
      · exact ⟨u, by simp [he]⟩
      · obtain ⟨t, ht⟩ := ih (i + 1) (by omega)
        exact ⟨t, by simp [he, ht]⟩
  exact gen patience 0 (by omega)

/-! ## C84: crossover -/

theorem crossAttempt_ok {s t : SearchSpace} (h : s.InOrder) (ho : t.InOrder)
    (hst : s.Pointwise (fun _ _ _ => True) t)
    (htv : ∀ p ∈ t, p.2.isFidelity = false → p.2.value ≠ none) (coin : String → Bool) :
    ∃ c, crossAttempt s t coin = some c ∧ c.InOrder ∧ s.Pointwise (fun n a b =>
      if a.isFidelity = false ∧ coin n = true then
        ∃ o, Dict.get? t n = some o ∧ b.value = o.value ∧ b.value ≠ none
      else b.value = a.value) c := by
  obtain ⟨child, hchild, hco, hcp⟩ := SearchSpace.clone_ok h
  have hone : ∀ p ∈ s, ∃ q : Hp, (do
      let q ← Dict.get? child p.1
      if p.2.isFidelity = false ∧ coin p.1 = true then do
        let other ← Dict.get? t p.1
        let q' ← takeOver q other
        return (p.1, q')
      else return (p.1, q) : Option (String × Hp)) = some (p.1, q) ∧ p.2.SameDecl q ∧ q.Ok ∧
      (if p.2.isFidelity = false ∧ coin p.1 = true then
        ∃ o, Dict.get? t p.1 = some o ∧ q.value = o.value ∧ q.value ≠ none
      else q.value = p.2.value) := by
    rintro ⟨k, a⟩ hp
    have ha := Dict.get?_of_mem h.nodup hp
    obtain ⟨q, hq, _, hqd, hqv⟩ := forall₂_get? hcp (fun p q h => h.1) ha
    obtain ⟨o, hob, _, hod, _⟩ := forall₂_get? hst (fun p q h => h.1) ha
    simp only at hqd hqv hod ⊢
    have hqok : q.Ok := hco.ok (k, q) (Dict.mem_of_get? hq)
    have hook : o.Ok := ho.ok (k, o) (Dict.mem_of_get? hob)
    by_cases hc : a.isFidelity = false ∧ coin k = true
    · have hov : o.value ≠ none := htv (k, o) (Dict.mem_of_get? hob) (by
        rw [hod.isFidelity]; exact hc.1)
      obtain ⟨v, hv⟩ := Option.ne_none_iff_exists'.mp hov
      have hacc : q.Accepts v := (hqd.accepts v).mp ((hod.accepts v).mpr (hook.value v hv))
      obtain ⟨s1, s2, s3, s4⟩ := Hp.setValue_ok hqok hacc
      have htk : takeOver q o = some (q.setValue v).st := by
        unfold takeOver; simp only [hv, s1, Bool.false_eq_true, if_false]
      refine ⟨(q.setValue v).st, ?_, hqd.trans s3, s4, ?_⟩
      · rw [hq, hob]
        simp only [Option.bind_eq_bind, Option.bind_some, if_pos hc, htk, Option.pure_def]
      · rw [if_pos hc]
        exact ⟨o, hob, by rw [s2, hv], by rw [s2]; simp⟩
    · refine ⟨q, ?_, hqd, hqok, ?_⟩
      · rw [hq]
        simp only [Option.bind_eq_bind, Option.bind_some, if_neg hc, Option.pure_def]
      · rw [if_neg hc]; exact hqv
  obtain ⟨c, hc⟩ := mapM_total (fun p hp => ⟨_, (hone p hp).choose_spec.1⟩)
  have hall : List.Forall₂ (fun p q : String × Hp => (q.1 = p.1 ∧ p.2.SameDecl q.2 ∧
      (if p.2.isFidelity = false ∧ coin p.1 = true then
        ∃ o, Dict.get? t p.1 = some o ∧ q.2.value = o.value ∧ q.2.value ≠ none
      else q.2.value = p.2.value)) ∧ q.2.Ok) s c := by
    apply forall₂_imp_mem (mapM_forall₂ hc)
    intro p hp q _ hpq
    obtain ⟨q', e1, e2, e3, e4⟩ := hone p hp
    rw [hpq] at e1
    simp only [Option.some.injEq] at e1
    subst e1
    exact ⟨⟨rfl, e2, e4⟩, e3⟩
  refine ⟨c, ?_, ?_, hall.imp fun _ _ h => h.1⟩
  · unfold crossAttempt
    rw [hchild]
    exact hc
  · refine h.of (hall.imp fun _ _ h => ⟨h.1.1, h.1.2.1⟩) ?_
    intro q hq
    obtain ⟨p, _, hpq⟩ := forall₂_mem_right hall q hq
    exact hpq.2

theorem Differs.flip {fid : Bool} {s t : SearchSpace} (hst : s.Pointwise (fun _ _ _ => True) t)
    (h : Differs fid t s) : Differs fid s t := by
  obtain ⟨k, a, b, ha, hb, hf, hn⟩ := h
  obtain ⟨a', ha', _, hd, _⟩ := forall₂_get? hst (fun p q h => h.1) hb
  rw [ha] at ha'
  simp only [Option.some.injEq] at ha'
  subst ha'
  refine ⟨k, b, a, hb, ha, ?_, fun h => hn h.symm'⟩
  intro h
  exact hf (by rw [hd.isFidelity]; exact h)

/-- **C84, crossover**: the result is a configuration of the same space, with the fidelity of the
first parent.  Either every parameter has the value of the second parent, if chosen, or of the
first, and it differs from the first parent; or in no attempt a difference to eight digits came
about, and the result is a fresh uniform sample, with no value from either parent but the
fidelity. -/
theorem C84_crossover (isFloat : Val → Bool) (s t : SearchSpace) (h : s.InOrder) (ho : t.InOrder)
    (hst : s.Pointwise (fun _ _ _ => True) t) (hsv : s.Valued)
    (htv : ∀ p ∈ t, p.2.isFidelity = false → p.2.value ≠ none) (patience : ℕ)
    (coin : ℕ → String → Bool) (draws : String → List Draw) (c : SearchSpace)
    (hc : customCrossover isFloat s t patience coin draws = some c) :
    c.InOrder ∧
      ((∃ i < patience, Differs false s c ∧ s.Pointwise (fun n a b =>
          if a.isFidelity = false ∧ coin i n = true then
            ∃ o, Dict.get? t n = some o ∧ b.value = o.value ∧ b.value ≠ none
          else b.value = a.value) c) ∨
        (s.sample false true patience draws = some c ∧
          ∀ i < patience, ∃ u, crossAttempt s t (coin i) = some u ∧ ¬ Differs true s u)) := by
  unfold customCrossover at hc
  have gen : ∀ n i, i + n = patience → crossGo isFloat s t patience coin draws n i = some c →
      (∀ j < i, ∃ u, crossAttempt s t (coin j) = some u ∧ ¬ Differs true s u) →
      c.InOrder ∧
      ((∃ i < patience, Differs false s c ∧ s.Pointwise (fun n a b =>
          if a.isFidelity = false ∧ coin i n = true then
            ∃ o, Dict.get? t n = some o ∧ b.value = o.value ∧ b.value ≠ none
          else b.value = a.value) c) ∨
        (s.sample false true patience draws = some c ∧
          ∀ i < patience, ∃ u, crossAttempt s t (coin i) = some u ∧ ¬ Differs true s u)) := by
    intro n
    induction n with
    | zero =>
      intro i hi hg hprev
      simp only [crossGo] at hg
      exact ⟨(C59_sample s h _ _ _ _ _ hg).1, Or.inr ⟨hg, fun j hj => hprev j (by omega)⟩⟩
    | succ n ih =>
      intro i hi hg hprev
      obtain ⟨u, hu, huo, hup⟩ := crossAttempt_ok h ho hst htv (coin i)
      have huv : u.Valued := Pointwise.valued hup hsv (by
        intro n a b h1 h2
        split_ifs at h1
        · obtain ⟨_, _, _, h3⟩ := h1; exact h3
        · rw [h1]; exact h2)
      have hsu : s.Pointwise (fun _ _ _ => True) u :=
        List.Forall₂.imp (fun _ _ h => ⟨h.1, h.2.1, trivial⟩) hup
      have hus : u.Pointwise (fun _ _ _ => True) s :=
        List.Forall₂.flip (List.Forall₂.imp (fun p q h => ⟨h.1.symm, h.2.1.symm, trivial⟩) hsu)
      simp only [crossGo, Option.bind_eq_bind, hu, Option.bind_some] at hg
      rcases equal_false_iff isFloat huo h hus huv hsv true with ⟨he, hd⟩ | ⟨he, hd⟩
      · rw [he] at hg
        simp only [Option.bind_some, Bool.false_eq_true, if_false] at hg
        rw [h.make hsu.decl] at hg
        simp only [Option.some.injEq] at hg
        subst hg
        refine ⟨huo, Or.inl ⟨i, by omega, ?_, hup⟩⟩
        -- the difference is not in the fidelity
        obtain ⟨k, a, b, ha, hb, _, hn⟩ := hd.flip hsu
        refine ⟨k, a, b, ha, hb, ?_, hn⟩
        intro hf
        obtain ⟨b', hb', _, hdecl, hv⟩ := forall₂_get? hup (fun p q h => h.1) ha
        rw [hb] at hb'
        simp only [Option.some.injEq] at hb'
        subst hb'
        simp only [hf, Bool.true_eq_false, false_and, if_false] at hv
        exfalso
        apply hn
        have hav := hsv (k, a) (Dict.mem_of_get? ha)
        cases a with
        | float p =>
          cases b with
          | float q =>
            simp only [Hp.value, ne_eq, Option.map_eq_none_iff] at hav
            obtain ⟨x, hx⟩ := Option.ne_none_iff_exists'.mp hav
            have hq : q.value = some x := by
              simp only [Hp.value, hx, Option.map_some, Option.map_eq_some_iff] at hv
              obtain ⟨y, hy, hyx⟩ := hv
              simp only [Val.num.injEq] at hyx
              rw [hy, hyx]
            refine ⟨x, x, hx, hq, ?_⟩
            obtain ⟨d1, d2, d3, _, _⟩ := hdecl
            have : q.valueToNormalized x = p.valueToNormalized x := by
              simp only [FloatParam.valueToNormalized, FloatParam.low, FloatParam.high, d1, d2, d3]
            rw [this, sub_self, abs_zero]
            positivity
          | _ => simp [Hp.SameDecl] at hdecl
        | int p =>
          simp only [SameValue]; exact hv.symm
        | cat p => simp [Hp.isFidelity] at hf
        | const p => simp [Hp.isFidelity] at hf
      · rw [he] at hg
        simp only [Option.bind_some, if_true] at hg
        refine ih (i + 1) (by omega) hg ?_
        intro j hj
        by_cases hji : j = i
        · subst hji; exact ⟨u, hu, fun hd' => hd (hd'.flip hus)⟩
        · exact hprev j (by omega)
  exact gen patience 0 (by omega) hc (by omega)

/-- **C84, crossover of a configuration with itself**: the result is always a fresh sample. -/
theorem C84_crossover_self (isFloat : Val → Bool) (s : SearchSpace) (h : s.InOrder) (hsv : s.Valued)
    (patience : ℕ) (coin : ℕ → String → Bool) (draws : String → List Draw) :
    customCrossover isFloat s s patience coin draws = s.sample false true patience draws := by
  have hself : s.Pointwise (fun _ _ _ => True) s := by
    unfold SearchSpace.Pointwise
    rw [List.forall₂_same]
    exact fun p _ => ⟨rfl, Hp.SameDecl.refl _, trivial⟩
  unfold customCrossover
  have gen : ∀ n i, crossGo isFloat s s patience coin draws n i =
      s.sample false true patience draws := by
    intro n
    induction n with
    | zero => intro i; rfl
    | succ n ih =>
      intro i
      obtain ⟨u, hu, huo, hup⟩ := crossAttempt_ok h h hself (fun p hp _ => hsv p hp) (coin i)
      have hsame : s.Pointwise (fun _ a b => b.value = a.value) u := by
        refine forall₂_imp_mem hup ?_
        rintro ⟨k, a⟩ ha ⟨k', b⟩ _ ⟨h1, h2, h3⟩
        refine ⟨h1, h2, ?_⟩
        simp only at h3 ⊢
        split_ifs at h3
        · obtain ⟨o, ho, hb, _⟩ := h3
          rw [Dict.get?_of_mem h.nodup ha] at ho
          simp only [Option.some.injEq] at ho
          rw [hb, ← ho]
        · exact h3
      have huv : u.Valued := Pointwise.valued hsame hsv (fun n a b h1 h2 => by rw [h1]; exact h2)
      have hsu : s.Pointwise (fun _ _ _ => True) u :=
        List.Forall₂.imp (fun _ _ h => ⟨h.1, h.2.1, trivial⟩) hup
      have hus : u.Pointwise (fun _ _ _ => True) s :=
        List.Forall₂.flip (List.Forall₂.imp (fun p q h => ⟨h.1.symm, h.2.1.symm, trivial⟩) hsu)
      have hnd : ¬ Differs true u s := by
        intro hd
        obtain ⟨k, a, b, ha, hb, _, hn⟩ := hd.flip hsu
        obtain ⟨b', hb', _, hdecl, hv⟩ := forall₂_get? hsame (fun p q h => h.1) ha
        rw [hb] at hb'
        simp only [Option.some.injEq] at hb'
        subst hb'
        apply hn
        have hav := hsv (k, a) (Dict.mem_of_get? ha)
        cases a with
        | float p =>
          cases b with
          | float q =>
            simp only [Hp.value, ne_eq, Option.map_eq_none_iff] at hav
            obtain ⟨x, hx⟩ := Option.ne_none_iff_exists'.mp hav
            have hq : q.value = some x := by
              simp only [Hp.value, hx, Option.map_some, Option.map_eq_some_iff] at hv
              obtain ⟨y, hy, hyx⟩ := hv
              simp only [Val.num.injEq] at hyx
              rw [hy, hyx]
            refine ⟨x, x, hx, hq, ?_⟩
            obtain ⟨d1, d2, d3, _, _⟩ := hdecl
            have : q.valueToNormalized x = p.valueToNormalized x := by
              simp only [FloatParam.valueToNormalized, FloatParam.low, FloatParam.high, d1, d2, d3]
            rw [this, sub_self, abs_zero]
            positivity
          | _ => simp [Hp.SameDecl] at hdecl
        | _ => simp only [SameValue]; exact hv.symm
      simp only [crossGo, Option.bind_eq_bind, hu, Option.bind_some]
      rcases equal_false_iff isFloat huo h hus huv hsv true with ⟨_, hd⟩ | ⟨he, _⟩
      · exact absurd hd hnd
      · rw [he]
        simp only [Option.bind_some, if_true]
        exact ih (i + 1)
  exact gen patience 0

/-! ## C84: Gaussian sampling -/

theorem defaultToValue_ok {h : Hp} (hok : h.Ok) (hv : h.value ≠ none) :
    ∃ q, defaultToValue h = some q ∧ h.SameRange q ∧ q.Ok ∧ q.value = h.value ∧
      (¬ h.IsCat → q.dflt = h.value) ∧ (h.IsCat → q.dflt = h.dflt) := by
  have key : ∀ v, h.value = some v → ¬ h.IsConst → ∀ q, (h.setDefault v).st = q →
      (h.setDefault v).raised = false ∧ h.SameRange q ∧ q.Ok ∧ q.value = h.value ∧
        q.dflt = h.value := by
    rintro v hv hc q rfl
    obtain ⟨h1, h2, h3, h4, h5⟩ := Hp.setDefault_ok hok hc (hok.value v hv)
    exact ⟨h1, h2, h5, h3, by rw [h4, hv]⟩
  cases h with
  | float p =>
    simp only [Hp.value, ne_eq, Option.map_eq_none_iff] at hv
    obtain ⟨x, hx⟩ := Option.ne_none_iff_exists'.mp hv
    obtain ⟨h1, h2, h3, h4, h5⟩ := key (.num x) (by simp [Hp.value, hx]) (by simp [Hp.IsConst]) _ rfl
    refine ⟨_, ?_, h2, h3, h4, fun _ => h5, by simp [Hp.IsCat]⟩
    simp only [Hp.setDefault] at h1
    simp only [defaultToValue, hx, Hp.setDefault, h1, Bool.false_eq_true, if_false]
  | int p =>
    simp only [Hp.value, ne_eq, Option.map_eq_none_iff] at hv
    obtain ⟨x, hx⟩ := Option.ne_none_iff_exists'.mp hv
    obtain ⟨h1, h2, h3, h4, h5⟩ := key (.num x) (by simp [Hp.value, hx]) (by simp [Hp.IsConst]) _ rfl
    refine ⟨_, ?_, h2, h3, h4, fun _ => h5, by simp [Hp.IsCat]⟩
    simp only [Hp.setDefault] at h1
    simp only [defaultToValue, hx, Option.map_some, Hp.setDefault, h1, Bool.false_eq_true, if_false]
  | cat p =>
    exact ⟨.cat p, rfl, Hp.SameRange.refl _, hok, rfl, by simp [Hp.IsCat], fun _ => rfl⟩
  | const p =>
    refine ⟨.const p, rfl, Hp.SameRange.refl _, hok, rfl, fun _ => ?_, by simp [Hp.IsCat]⟩
    have : p.dflt = p.value := hok.used
    simp [Hp.dflt, Hp.value, this]

/-- **C84, Gaussian sampling**: the centre exists; every parameter that is not categorical, even the
fidelity, has the incumbent's value as its default.  Missing: categorical parameters, which keep
the default of the search space. -/
theorem C84_gaussian_partial (s : SearchSpace) (h : s.InOrder) (hsv : s.Valued) :
    ∃ c, gaussianCentre s = some c ∧ List.Forall₂ (fun p q : String × Hp => q.1 = p.1 ∧
      p.2.SameRange q.2 ∧ q.2.Ok ∧ (¬ p.2.IsCat → q.2.dflt = p.2.value) ∧
      (p.2.IsCat → q.2.dflt = p.2.dflt)) s c := by
  obtain ⟨c, hc, hco, hcp⟩ := SearchSpace.clone_ok h
  have hcv : c.Valued := Pointwise.valued hcp hsv (fun n a b h1 h2 => by rw [h1]; exact h2)
  have hone : ∀ p ∈ c, ∃ q, ((defaultToValue p.2).map fun q => (p.1, q)) = some q := by
    intro p hp
    obtain ⟨q, hq, _⟩ := defaultToValue_ok (hco.ok p hp) (hcv p hp)
    exact ⟨(p.1, q), by simp [hq]⟩
  obtain ⟨m, hm⟩ := mapM_total hone
  refine ⟨m, by unfold gaussianCentre; rw [hc]; exact hm, ?_⟩
  have h2 : List.Forall₂ (fun p q : String × Hp => q.1 = p.1 ∧ p.2.SameRange q.2 ∧ q.2.Ok ∧
      (¬ p.2.IsCat → q.2.dflt = p.2.value) ∧ (p.2.IsCat → q.2.dflt = p.2.dflt)) c m := by
    apply forall₂_imp_mem (mapM_forall₂ hm)
    intro p hp q _ hpq
    simp only [Option.map_eq_some_iff] at hpq
    obtain ⟨q', hq', rfl⟩ := hpq
    obtain ⟨q'', hq'', a1, a2, a3, a4, a5⟩ := defaultToValue_ok (hco.ok p hp) (hcv p hp)
    rw [hq'] at hq''
    simp only [Option.some.injEq] at hq''
    subst hq''
    exact ⟨rfl, a1, a2, a4, a5⟩
  refine List.Forall₂.imp ?_ (forall₂_trans hcp h2)
  rintro p q ⟨r, ⟨r1, r2, r3⟩, q1, q2, q3, q4, q5⟩
  refine ⟨by rw [q1, r1], r2.range.trans q2, q3, fun hn => ?_, fun hy => ?_⟩
  · rw [q4 (fun hc => hn (r2.isCat.mp hc)), r3]
  · rw [q5 (r2.isCat.mpr hy), r2.dflt]

/-! ## Non-vacuity -/

/-- A configuration with one parameter. -/
noncomputable def oneAct : SearchSpace := [("act", .cat demoAct)]

theorem oneAct_inOrder : oneAct.InOrder := by
  refine ⟨oneAct, by simp [oneAct, Dict.keys], ?_, ?_⟩
  · simp only [oneAct, List.mem_cons, List.not_mem_nil, or_false]
    rintro p rfl
    exact demoAct_ok
  · simp [SearchSpace.make, oneAct, Dict.sorted, Hp.isFidelity]

theorem oneAct_valued : oneAct.Valued := by
  simp [SearchSpace.Valued, oneAct, Hp.value, demoAct]

/-- **C84 fails for categorical parameters in Gaussian sampling**: a categorical parameter keeps
the default of the search space, whatever the incumbent's choice, so that samples around the
incumbent are, in this parameter, samples around the prior. -/
theorem C84_gaussian_categorical_fails : ∃ s c : SearchSpace, s.InOrder ∧ s.Valued ∧
    gaussianCentre s = some c ∧ ∃ k a b, Dict.get? s k = some a ∧ Dict.get? c k = some b ∧
      b.dflt ≠ a.value := by
  obtain ⟨c, hc, hp⟩ := C84_gaussian_partial oneAct oneAct_inOrder oneAct_valued
  obtain ⟨b, hb, _, _, _, _, hd⟩ := forall₂_get? (k := "act") (a := .cat demoAct) hp
    (fun p q h => h.1) (by simp [Dict.get?, oneAct])
  refine ⟨oneAct, c, oneAct_inOrder, oneAct_valued, hc, "act", .cat demoAct, b,
    by simp [Dict.get?, oneAct], hb, ?_⟩
  have := hd (by simp [Hp.IsCat])
  simp only at this
  rw [this]
  simp [Hp.dflt, Hp.value, demoAct]

/-- The hypotheses of `C84_mutation` and `C84_mutation_total` are met, and the mutant differs. -/
example : ∃ t, localMutation (fun _ => false) oneAct 50 true (fun _ _ => ⟨true, [], 1⟩) = some t ∧
    Differs false oneAct t := by
  obtain ⟨t, ht⟩ := C84_mutation_total (fun _ => false) oneAct oneAct_inOrder oneAct_valued 50 true
    (fun _ _ => ⟨true, [], 1⟩) (by
      simp only [oneAct, List.mem_cons, List.not_mem_nil, or_false]
      rintro i _ p rfl _ _ _
      exact demoAct_mutate)
  refine ⟨t, ht, ?_⟩
  obtain ⟨_, _, ⟨i, _, _, h, _⟩ | ⟨_, h⟩⟩ := C84_mutation _ _ oneAct_inOrder oneAct_valued _ _ _ _ ht
  · exact h
  · obtain ⟨u, hu, hn⟩ := h 0 (by norm_num)
    exfalso
    apply hn
    obtain ⟨huo, hup⟩ := localAttempt_ok oneAct_inOrder hu
    obtain ⟨b, hb, _, _, hv⟩ := forall₂_get? (k := "act") (a := .cat demoAct) hup (fun p q h => h.1)
      (by simp [Dict.get?, oneAct])
    refine ⟨"act", .cat demoAct, b, by simp [Dict.get?, oneAct], hb, by simp [Hp.isFidelity], ?_⟩
    unfold Varied at hv
    rw [if_pos ⟨by simp [Hp.isFidelity], rfl, by simp [Hp.IsConst], fun _ => rfl⟩] at hv
    simp only [SameValue]
    exact fun h => hv.1 h.symm

/-- The hypotheses of `C84_crossover` are met. -/
example : ∃ s t : SearchSpace, s.InOrder ∧ t.InOrder ∧ s.Pointwise (fun _ _ _ => True) t ∧
    s.Valued ∧ (∀ p ∈ t, p.2.isFidelity = false → p.2.value ≠ none) ∧
    ∃ c, customCrossover (fun _ => false) s t 50 (fun _ _ => true)
      (fun _ => [⟨1 / 2, 1, 0⟩]) = some c := by
  refine ⟨oneAct, oneAct, oneAct_inOrder, oneAct_inOrder, ?_, oneAct_valued,
    fun p hp _ => oneAct_valued p hp, ?_⟩
  · unfold SearchSpace.Pointwise
    rw [List.forall₂_same]
    exact fun p _ => ⟨rfl, Hp.SameDecl.refl _, trivial⟩
  · rw [C84_crossover_self _ _ oneAct_inOrder oneAct_valued]
    exact C59_sample_total oneAct oneAct_inOrder false true 50 (by norm_num) _
      (by simp [oneAct, Hp.Drawable, demoAct])

end Verif.PriorBand
