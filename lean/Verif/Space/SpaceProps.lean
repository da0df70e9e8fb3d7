import Verif.Space.SpaceDemo

/-!
# Properties of search spaces and configurations (C59-C65)
-/

namespace Verif.Space

namespace SearchSpace

/-! ## C59: sampling -/

/-- **C59**: a sampled configuration is in order, has the names and declarations of the space, and
every parameter has a legal value, except that a fidelity that is to be ignored keeps the value it
had. -/
theorem C59_sample (s : SearchSpace) (h : s.InOrder) (userPriors ignoreFidelity : Bool)
    (patience : ℕ) (draws : String → List Draw) (c : SearchSpace)
    (hc : s.sample userPriors ignoreFidelity patience draws = some c) :
    c.InOrder ∧ s.Pointwise (fun _ a b =>
      if a.isFidelity = true ∧ ignoreFidelity = true then b.value = a.value
      else ∃ v, b.value = some v ∧ a.Accepts v) c := by
  unfold sample at hc
  rw [Option.bind_eq_bind, Option.bind_eq_some_iff] at hc
  obtain ⟨m, hm, hc⟩ := hc
  have hall : List.Forall₂ (fun p q : String × Hp => (q.1 = p.1 ∧ p.2.SameDecl q.2 ∧
      (if p.2.isFidelity = true ∧ ignoreFidelity = true then q.2.value = p.2.value
      else ∃ v, q.2.value = some v ∧ p.2.Accepts v)) ∧ q.2.Ok) s m := by
    apply forall₂_imp_mem (mapM_forall₂ hm)
    intro p hp q _ hpq
    simp only [Option.map_eq_some_iff] at hpq
    obtain ⟨q', hq', rfl⟩ := hpq
    unfold sampleHp at hq'
    split_ifs at hq' with hi
    · obtain ⟨r, hr, h1, h2, h3⟩ := Hp.clone_ok (h.ok p hp)
      rw [hr] at hq'
      simp only [Option.some.injEq] at hq'
      subst hq'
      exact ⟨⟨rfl, h1, by rw [if_pos hi]; exact h2⟩, h3⟩
    · obtain ⟨d, _, hd⟩ := List.exists_of_findSome?_eq_some hq'
      obtain ⟨h1, h2, h3⟩ := Hp.sample_ok (h.ok p hp) hd
      exact ⟨⟨rfl, h1, by rw [if_neg hi]; exact h3⟩, h2⟩
  have hd : List.Forall₂ (fun p q : String × Hp => q.1 = p.1 ∧ p.2.SameDecl q.2) s m :=
    List.Forall₂.imp (fun _ _ h => ⟨h.1.1, h.1.2.1⟩) hall
  rw [h.make hd] at hc
  simp only [Option.some.injEq] at hc
  subst hc
  refine ⟨h.of hd ?_, List.Forall₂.imp (fun _ _ h => h.1) hall⟩
  intro q hq
  obtain ⟨p, _, hp⟩ := forall₂_mem_right hall q hq
  exact hp.2

/-- Sampling never fails when at least one attempt is allowed. -/
theorem C59_sample_total (s : SearchSpace) (h : s.InOrder) (userPriors ignoreFidelity : Bool)
    (patience : ℕ) (hp : 1 ≤ patience) (draws : String → List Draw)
    (hd : ∀ p ∈ s, ∃ d ds, draws p.1 = d :: ds ∧ p.2.Drawable d) :
    ∃ c, s.sample userPriors ignoreFidelity patience draws = some c := by
  have ht : ∃ m, s.mapM (fun p : String × Hp =>
      (sampleHp userPriors ignoreFidelity patience (draws p.1) p.2).map fun q => (p.1, q)) =
        some m := by
    apply mapM_total
    intro p hps
    have : ∃ q, sampleHp userPriors ignoreFidelity patience (draws p.1) p.2 = some q := by
      unfold sampleHp
      split_ifs
      · obtain ⟨q, hq, _⟩ := Hp.clone_ok (h.ok p hps)
        exact ⟨q, hq⟩
      · obtain ⟨d, ds, he, hdr⟩ := hd p hps
        obtain ⟨q, hq⟩ := Hp.sample_total (h.ok p hps) userPriors hdr
        obtain ⟨n, rfl⟩ : ∃ n, patience = n + 1 := ⟨patience - 1, by omega⟩
        exact ⟨q, by simp [he, hq]⟩
    obtain ⟨q, hq⟩ := this
    exact ⟨(p.1, q), by simp [hq]⟩
  obtain ⟨m, hm⟩ := ht
  have hall : List.Forall₂ (fun p q : String × Hp => q.1 = p.1 ∧ p.2.SameDecl q.2) s m := by
    apply forall₂_imp_mem (mapM_forall₂ hm)
    intro p hps q _ hpq
    simp only [Option.map_eq_some_iff] at hpq
    obtain ⟨q', hq', rfl⟩ := hpq
    unfold sampleHp at hq'
    split_ifs at hq' with hi
    · obtain ⟨r, hr, h1, h2, h3⟩ := Hp.clone_ok (h.ok p hps)
      rw [hr] at hq'
      simp only [Option.some.injEq] at hq'
      subst hq'
      exact ⟨rfl, h1⟩
    · obtain ⟨d, _, hd⟩ := List.exists_of_findSome?_eq_some hq'
      exact ⟨rfl, (Hp.sample_ok (h.ok p hps) hd).1⟩
  exact ⟨m, by unfold sample; simp [hm, h.make hall]⟩

/-- The demonstration space can be sampled. -/
example : ∃ c, demoSpace.sample true true 100 (fun _ => [⟨1 / 2, 1, 0⟩]) = some c :=
  C59_sample_total _ demoSpace_inOrder _ _ _ (by norm_num) _ (by
    simp [demoSpace, Hp.Drawable, demoAct])

/-! ## C60: writing and reading configurations -/

/-- One loaded value. -/
theorem loadOne_ok {s : SearchSpace} (h : s.InOrder) {k : String} {v : Val} {a : Hp}
    (ha : Dict.get? s k = some a) (hv : a.Accepts v) :
    ∃ c, loadOne s (k, v) = some c ∧ c.InOrder ∧
      s.Pointwise (fun n x y => y.value = if n = k then some v else x.value) c := by
  have hok := h.ok (k, a) (Dict.mem_of_get? ha)
  obtain ⟨l1, l2, l3, l4⟩ := Hp.loadFrom_ok hok hv
  have hset := Dict.set_forall₂ s k (a.loadFrom v).st (Dict.get?_mem_keys ha)
  have hall : List.Forall₂ (fun p q : String × Hp => (q.1 = p.1 ∧ p.2.SameDecl q.2 ∧
      q.2.value = if p.1 = k then some v else p.2.value) ∧ q.2.Ok) s
        (Dict.set s k (a.loadFrom v).st) := by
    apply forall₂_imp_mem hset
    rintro ⟨n, x⟩ hp q _ ⟨h1, h2, h3⟩
    by_cases hc : n = k
    · subst hc
      have : x = a := by
        have := Dict.get?_of_mem h.nodup hp
        rw [ha] at this
        simpa using this.symm
      subst this
      rw [h2 rfl]
      exact ⟨⟨h1, l3, by simp [l2]⟩, l4⟩
    · rw [h3 hc]
      exact ⟨⟨h1, Hp.SameDecl.refl _, by simp [hc]⟩, h.ok _ hp⟩
  have hd : List.Forall₂ (fun p q : String × Hp => q.1 = p.1 ∧ p.2.SameDecl q.2) s
      (Dict.set s k (a.loadFrom v).st) := List.Forall₂.imp (fun _ _ h => ⟨h.1.1, h.1.2.1⟩) hall
  refine ⟨_, ?_, h.of hd ?_, List.Forall₂.imp (fun _ _ h => h.1) hall⟩
  · unfold loadOne
    simp [ha, l1]
  · intro q hq
    obtain ⟨p, _, hp⟩ := forall₂_mem_right hall q hq
    exact hp.2

theorem loads_ok (config : Dict Val) : ∀ {s : SearchSpace}, s.InOrder → config.keys.Nodup →
    (∀ kv ∈ config, ∃ a, Dict.get? s kv.1 = some a ∧ a.Accepts kv.2) →
    ∃ c, config.foldlM loadOne s = some c ∧ c.InOrder ∧
      s.Pointwise (fun n x y => y.value = (Dict.get? config n).or x.value) c := by
  induction config with
  | nil =>
    intro s h _ _
    refine ⟨s, by simp, h, ?_⟩
    unfold Pointwise
    rw [List.forall₂_same]
    intro p _
    exact ⟨rfl, Hp.SameDecl.refl _, by simp [Dict.get?]⟩
  | cons kv config ih =>
    intro s h hn hv
    obtain ⟨k, v⟩ := kv
    obtain ⟨a, ha, hav⟩ := hv (k, v) (by simp)
    obtain ⟨t, ht, hto, htp⟩ := loadOne_ok h ha hav
    have hn' : k ∉ Dict.keys config ∧ (Dict.keys config).Nodup := by
      have := hn
      simp only [Dict.keys, List.map_cons, List.nodup_cons] at this
      exact this
    obtain ⟨c, hc, hco, hcp⟩ := ih hto hn'.2 (by
      rintro ⟨k', v'⟩ hkv
      obtain ⟨b, hb, hbv⟩ := hv (k', v') (by simp [hkv])
      obtain ⟨b', hb', _, hd, _⟩ := forall₂_get? htp (fun p q h => h.1) hb
      exact ⟨b', hb', (hd.accepts v').mp hbv⟩)
    refine ⟨c, by simp [List.foldlM_cons, ht, hc], hco, ?_⟩
    refine List.Forall₂.imp ?_ (forall₂_trans htp hcp)
    rintro p q ⟨r, ⟨r1, r2, r3⟩, ⟨q1, q2, q3⟩⟩
    refine ⟨by rw [q1, r1], r2.trans q2, ?_⟩
    simp only
    rw [q3, r1, r3]
    unfold Dict.get?
    rw [List.find?_cons]
    by_cases hk : p.1 = k
    · have hnone : Dict.get? config p.1 = none := by
        rw [hk]; exact Dict.get?_none hn'.1
      unfold Dict.get? at hnone
      rw [hnone]
      simp [hk]
    · have hk' : ¬ k = p.1 := fun e => hk e.symm
      simp [hk, hk']

/-- **C60, reading**: reading a dictionary of legal values for names of the space yields a
configuration that holds exactly these values; the other parameters keep theirs, and the space
itself is not touched (it is a value). -/
theorem C60_from_dict (s : SearchSpace) (h : s.InOrder) (config : Dict Val) (hn : config.keys.Nodup)
    (hv : ∀ kv ∈ config, ∃ a, Dict.get? s kv.1 = some a ∧ a.Accepts kv.2) :
    ∃ c, s.fromDict config = some c ∧ c.InOrder ∧
      s.Pointwise (fun n x y => y.value = (Dict.get? config n).or x.value) c := by
  obtain ⟨t, ht, hto, htp⟩ := clone_ok h
  obtain ⟨c, hc, hco, hcp⟩ := loads_ok config hto hn (by
    rintro ⟨k, v⟩ hkv
    obtain ⟨a, ha, hav⟩ := hv (k, v) hkv
    obtain ⟨b, hb, _, hd, _⟩ := forall₂_get? htp (fun p q h => h.1) ha
    exact ⟨b, hb, (hd.accepts v).mp hav⟩)
  refine ⟨c, by unfold fromDict; simp [ht, hc], hco, ?_⟩
  refine List.Forall₂.imp ?_ (forall₂_trans htp hcp)
  rintro p q ⟨r, ⟨r1, r2, r3⟩, ⟨q1, q2, q3⟩⟩
  exact ⟨by rw [q1, r1], r2.trans q2, by simp only; rw [q3, r1, r3]⟩

/-- **C60, unknown names**: a dictionary with a name that is not in the space is rejected. -/
theorem C60_unknown_rejected (s : SearchSpace) (h : s.InOrder) (config : Dict Val)
    (k : String) (hk : k ∈ config.keys) (hs : k ∉ Dict.keys s) : s.fromDict config = none := by
  obtain ⟨t, ht, hto, htp⟩ := clone_ok h
  have hkt : k ∉ Dict.keys t := by rw [forall₂_keys_eq htp (fun p q h => h.1)]; exact hs
  have gen : ∀ (config : Dict Val) (t : SearchSpace), k ∉ Dict.keys t → k ∈ config.keys →
      config.foldlM loadOne t = none := by
    intro config
    induction config with
    | nil => intro t _ hk; simp [Dict.keys] at hk
    | cons kv config ih =>
      intro t hkt hk
      rw [List.foldlM_cons, Option.bind_eq_bind]
      cases hl : loadOne t kv with
      | none => rfl
      | some u =>
        unfold loadOne at hl
        rw [Option.bind_eq_bind, Option.bind_eq_some_iff] at hl
        obtain ⟨a, ha, hl⟩ := hl
        simp only at hl
        split_ifs at hl
        simp only [Option.pure_def, Option.some.injEq] at hl
        have hmem := Dict.get?_mem_keys ha
        have hku : Dict.keys u = Dict.keys t := by
          rw [← hl]
          exact forall₂_keys_eq (Dict.set_forall₂ t kv.1 _ hmem) (fun p q h => h.1)
        rw [Option.bind_some]
        apply ih u (by rw [hku]; exact hkt)
        simp only [Dict.keys, List.map_cons, List.mem_cons] at hk
        rcases hk with rfl | hk
        · exact absurd hmem hkt
        · exact hk
  unfold fromDict
  simp [ht, gen config t hkt hk]

theorem serialize_some {c : SearchSpace} (hv : c.Valued) : ∃ d, c.serialize = some d ∧
    List.Forall₂ (fun p kv => kv.1 = p.1 ∧ p.2.value = some kv.2) c d := by
  have ht : ∃ d, c.mapM (fun p : String × Hp => p.2.value.map fun v => (p.1, v)) = some d := by
    apply mapM_total
    intro p hp
    obtain ⟨v, hv⟩ := Option.ne_none_iff_exists'.mp (hv p hp)
    exact ⟨(p.1, v), by simp [hv]⟩
  obtain ⟨d, hd⟩ := ht
  refine ⟨d, hd, List.Forall₂.imp ?_ (mapM_forall₂ hd)⟩
  intro p kv hpk
  simp only [Option.map_eq_some_iff] at hpk
  obtain ⟨v, hv, rfl⟩ := hpk
  exact ⟨rfl, hv⟩

/-- **C60**: writing a configuration of a space and reading it with the space gives back the
values, name by name. -/
theorem C60_round_trip (s : SearchSpace) (h : s.InOrder) (c : SearchSpace) (hc : c.InOrder)
    (hsc : s.Pointwise (fun _ _ _ => True) c) (hv : c.Valued) :
    ∃ d c', c.serialize = some d ∧ s.fromDict d = some c' ∧
      c.Pointwise (fun _ x y => y.value = x.value) c' := by
  obtain ⟨d, hd, hall⟩ := serialize_some hv
  have hkeys : Dict.keys d = Dict.keys c := by
    clear hd hsc hv hc
    induction hall with
    | nil => rfl
    | cons hab _ ih => simp only [Dict.keys, List.map_cons] at ih ⊢; rw [hab.1, ih]
  have hdn : (Dict.keys d).Nodup := by rw [hkeys]; exact hc.nodup
  have hsym : List.Forall₂ (fun q p : String × Hp => p.1 = q.1 ∧ q.2.SameDecl p.2) c s :=
    List.Forall₂.flip (List.Forall₂.imp (fun p q h => ⟨h.1.symm, h.2.1.symm⟩) hsc)
  obtain ⟨c', hc', hco, hcp⟩ := C60_from_dict s h d hdn (by
    rintro ⟨k, v⟩ hkv
    obtain ⟨⟨n, q⟩, hq, h1, h2⟩ := forall₂_mem_right hall _ hkv
    simp only at h1 h2
    subst h1
    obtain ⟨a, ha, _, hda⟩ := forall₂_get? hsym (fun p q h => h.1) (Dict.get?_of_mem hc.nodup hq)
    exact ⟨a, ha, (hda.accepts v).mp ((hc.ok _ hq).value v h2)⟩)
  refine ⟨d, c', hd, hc', ?_⟩
  refine forall₂_imp_mem (forall₂_trans hsym hcp) ?_
  rintro ⟨k, q⟩ hq r _ ⟨p, ⟨p1, p2⟩, ⟨r1, r2, r3⟩⟩
  refine ⟨by rw [r1, p1], p2.trans r2, ?_⟩
  obtain ⟨⟨k', v⟩, hkv, e1, e2⟩ := forall₂_mem_left hall _ hq
  simp only at e1 e2
  subst e1
  rw [r3, p1]
  simp only
  rw [Dict.get?_of_mem hdn hkv, e2]
  rfl

/-- Reading a configuration of the demonstration space. -/
example : ∃ c, demoSpace.fromDict [("lr", .num 5), ("act", .str "gelu")] = some c ∧ c.InOrder ∧
    demoSpace.Pointwise (fun n x y => y.value =
      (Dict.get? [("lr", Val.num 5), ("act", .str "gelu")] n).or x.value) c :=
  C60_from_dict _ demoSpace_inOrder _ (by simp [Dict.keys]) (by
    simp only [List.mem_cons, List.not_mem_nil, or_false]
    rintro kv (rfl | rfl)
    · exact ⟨.float demoLr, by simp [Dict.get?, demoSpace], 5, rfl, by norm_num [demoLr],
        by norm_num [demoLr]⟩
    · exact ⟨.cat demoAct, by simp [Dict.get?, demoSpace], by simp [Hp.Accepts, demoAct]⟩)

/-- A name that is not in the demonstration space. -/
example : demoSpace.fromDict [("momentum", .num 5)] = none :=
  C60_unknown_rejected _ demoSpace_inOrder _ "momentum" (by simp [Dict.keys])
    (by simp [Dict.keys, demoSpace])

/-- A configuration of the demonstration space that can be written and read. -/
theorem demo_config :
    ∃ c : SearchSpace, c.InOrder ∧ demoSpace.Pointwise (fun _ _ _ => True) c ∧ c.Valued := by
  obtain ⟨c, hc⟩ := C59_sample_total demoSpace demoSpace_inOrder false false 1 le_rfl
    (fun _ => [⟨1 / 2, 1, 0⟩]) (by simp [demoSpace, Hp.Drawable, demoAct])
  obtain ⟨h1, h2⟩ := C59_sample _ demoSpace_inOrder _ _ _ _ _ hc
  refine ⟨c, h1, List.Forall₂.imp (fun _ _ h => ⟨h.1, h.2.1, trivial⟩) h2, fun q hq => ?_⟩
  obtain ⟨p, _, _, _, h⟩ := forall₂_mem_right h2 q hq
  simp only [Bool.false_eq_true, and_false, if_false] at h
  obtain ⟨v, hv, _⟩ := h
  simp [hv]

/-! ## C61: mutation -/

/-- **C61**: a mutated configuration differs from the original in exactly one parameter, which is
not the fidelity and not a constant, and has a new legal value; everything else is as it was. -/
theorem C61_mutate (s : SearchSpace) (h : s.InOrder) (patience : ℕ)
    (attempts : List (ℕ × List ℝ × ℕ)) (c : SearchSpace)
    (hc : s.mutate none patience attempts = some c) :
    c.InOrder ∧ ∃ name ∈ Dict.keys s, s.Pointwise (fun n a b =>
      if n = name then a.isFidelity = false ∧ a.mutatable = true ∧ b.value ≠ a.value ∧
        ∃ v, b.value = some v ∧ a.Accepts v
      else b.value = a.value) c := by
  unfold mutate at hc
  simp only at hc
  rw [Option.bind_eq_some_iff] at hc
  obtain ⟨r, hr, hc⟩ := hc
  rw [Option.bind_eq_some_iff] at hc
  obtain ⟨m', hm', hmk⟩ := hc
  subst hm'
  obtain ⟨at', _, ha⟩ := List.exists_of_findSome?_eq_some hr
  unfold mutateOnce at ha
  split at ha
  · simp at ha
  · rename_i name hname
    split at ha
    · simp at ha
    · rename_i nh hnh
      rw [Option.some.injEq, Option.bind_eq_bind, Option.bind_eq_some_iff] at ha
      obtain ⟨m, hm, hmk1⟩ := ha
      rw [Option.bind_eq_some_iff] at hnh
      obtain ⟨a, hga, hmut⟩ := hnh
      have hok := h.ok _ (Dict.mem_of_get? hga)
      obtain ⟨u1, u2, u3, u4, u5⟩ := Hp.mutate_ok hok hmut
      have hmuta : a.mutatable = true := by
        cases a <;> simp_all [Hp.mutatable, Hp.mutate]
      have hall : List.Forall₂ (fun p q : String × Hp => (q.1 = p.1 ∧ p.2.SameDecl q.2 ∧
          if p.1 = name then p.2.isFidelity = false ∧ p.2.mutatable = true ∧
            q.2.value ≠ p.2.value ∧ ∃ v, q.2.value = some v ∧ p.2.Accepts v
          else q.2.value = p.2.value) ∧ q.2.Ok) s m := by
        apply forall₂_imp_mem (mapM_forall₂ hm)
        rintro ⟨n, x⟩ hp q _ hpq
        split_ifs at hpq with hn
        · simp only [Option.some.injEq] at hpq
          simp only at hn
          subst hpq
          have : x = a := by
            have := Dict.get?_of_mem h.nodup hp
            rw [hn, hga] at this
            simpa using this.symm
          subst this
          exact ⟨⟨rfl, u1, by simp only; rw [if_pos hn]; exact ⟨u4, hmuta, u3, u5⟩⟩, u2⟩
        · obtain ⟨r, hr, h1, h2, h3⟩ := Hp.clone_ok (h.ok _ hp)
          simp only [hr, Option.map_some, Option.some.injEq] at hpq
          subst hpq
          exact ⟨⟨rfl, h1, by rw [if_neg hn]; exact h2⟩, h3⟩
      have hd : List.Forall₂ (fun p q : String × Hp => q.1 = p.1 ∧ p.2.SameDecl q.2) s m :=
        List.Forall₂.imp (fun _ _ h => ⟨h.1.1, h.1.2.1⟩) hall
      rw [h.make hd] at hmk1
      simp only [Option.some.injEq] at hmk1
      subst hmk1
      rw [h.make hd] at hmk
      simp only [Option.some.injEq] at hmk
      subst hmk
      refine ⟨h.of hd ?_, name, Dict.get?_mem_keys hga, List.Forall₂.imp (fun _ _ h => h.1) hall⟩
      intro q hq
      obtain ⟨p, _, hp⟩ := forall₂_mem_right hall q hq
      exact hp.2

/-- **C61, success**: mutation succeeds as soon as one of the allowed attempts picks a parameter
that can be mutated with the numbers drawn. -/
theorem C61_mutate_progress (s : SearchSpace) (h : s.InOrder) (patience : ℕ)
    (attempts : List (ℕ × List ℝ × ℕ))
    (hr : ∀ a ∈ attempts, a.1 < s.mutatableNames.length)
    (hex : ∃ a ∈ attempts.take patience, ∃ name x q, s.mutatableNames[a.1]? = some name ∧
      Dict.get? s name = some x ∧ x.mutate a.2.1 a.2.2 = some q) :
    ∃ c, s.mutate none patience attempts = some c := by
  have hone : ∀ a ∈ attempts, ∀ r, s.mutateOnce a = some r →
      ∃ m, r = some m ∧ SearchSpace.make m = some m := by
    intro a ha r hm
    unfold mutateOnce at hm
    have hn : s.mutatableNames[a.1]? = some (s.mutatableNames[a.1]'(hr a ha)) := by
      simp [hr a ha]
    rw [hn] at hm
    simp only at hm
    split at hm
    · simp at hm
    · rename_i q hq
      rw [Option.bind_eq_some_iff] at hq
      obtain ⟨x, hx, hxq⟩ := hq
      have hok := h.ok _ (Dict.mem_of_get? hx)
      have hd := (Hp.mutate_ok hok hxq).1
      simp only [Option.some.injEq] at hm
      generalize hname : s.mutatableNames[a.1]'(hr a ha) = name at *
      have ht : ∃ m, s.mapM (fun p : String × Hp => if p.1 = name then some (p.1, q)
          else p.2.clone.map fun q => (p.1, q)) = some m := by
        apply mapM_total
        intro p hp
        by_cases hc : p.1 = name
        · exact ⟨_, by rw [if_pos hc]⟩
        · obtain ⟨r, hr, _⟩ := Hp.clone_ok (h.ok p hp)
          exact ⟨(p.1, r), by rw [if_neg hc, hr]; rfl⟩
      obtain ⟨m, hm'⟩ := ht
      have hall : List.Forall₂ (fun p q : String × Hp => q.1 = p.1 ∧ p.2.SameDecl q.2) s m := by
        apply forall₂_imp_mem (mapM_forall₂ hm')
        rintro ⟨n, y⟩ hp r _ hpr
        split_ifs at hpr with hc
        · simp only [Option.some.injEq] at hpr
          simp only at hc
          subst hpr
          have : y = x := by
            have := Dict.get?_of_mem h.nodup hp
            rw [hc, hx] at this
            simpa using this.symm
          subst this
          exact ⟨rfl, hd⟩
        · obtain ⟨r', hr', h1, _⟩ := Hp.clone_ok (h.ok _ hp)
          simp only [hr', Option.map_some, Option.some.injEq] at hpr
          subst hpr
          exact ⟨rfl, h1⟩
      have hmk := h.make hall
      refine ⟨m, ?_, hmk⟩
      rw [← hm, Option.bind_eq_bind, hm', Option.bind_some, hmk]
  obtain ⟨a, ha, name, x, q, h1, h2, h3⟩ := hex
  cases hf : (attempts.take patience).findSome? s.mutateOnce with
  | none =>
    rw [List.findSome?_eq_none_iff] at hf
    have := hf a ha
    unfold mutateOnce at this
    simp [h1, h2, h3] at this
  | some r =>
    obtain ⟨b, hb, hbr⟩ := List.exists_of_findSome?_eq_some hf
    obtain ⟨m, rfl, hmk⟩ := hone b (List.mem_of_mem_take hb) r hbr
    exact ⟨m, by simp [mutate, hf, hmk]⟩

/-- The activation function of the demonstration space can be mutated. -/
theorem demoAct_mutate : ∃ q, (Hp.cat demoAct).mutate [] 1 = some q := by
  simp [Hp.mutate, CatParam.mutate, CatParam.mutant, CatParam.neighbours, CatParam.neighbour,
    CatParam.available, CatParam.clone, CatParam.make, CatParam.setValue, CatParam.index, demoAct,
    List.findIdx?_cons, List.range_succ]

example : ∃ c, demoSpace.mutate none 50 [(0, [], 1)] = some c := by
  refine C61_mutate_progress _ demoSpace_inOrder _ _ ?_ ?_
  · simp [mutatableNames, demoSpace, Hp.isFidelity, Hp.mutatable, demoEpochs, demoLr]
  · obtain ⟨q, hq⟩ := demoAct_mutate
    refine ⟨(0, [], 1), by simp, "act", .cat demoAct, q, ?_, by simp [Dict.get?, demoSpace], hq⟩
    simp [mutatableNames, demoSpace, Hp.isFidelity, Hp.mutatable, demoEpochs, demoLr]

/-- **C61 fails** when a parent configuration is given: mutation always raises. -/
theorem C61_parent_fails (s parent : SearchSpace) (patience : ℕ)
    (attempts : List (ℕ × List ℝ × ℕ)) : s.mutate (some parent) patience attempts = none := rfl

/-! ## C62: crossover -/

/-- **C62**: the two children of a crossover of two configurations of one space are in order,
have the names and declarations of the space; constants, the fidelity and parameters that are not
crossed over have the value of the one parent in the one child and of the other parent in the
other; all other parameters have legal values.  A categorical parameter has the value of the one
parent in the one child and of the other parent in the other in any case: see
`C62_categorical_exchange_fails`. -/
theorem C62_crossover (s other : SearchSpace) (h : s.InOrder) (ho : other.InOrder)
    (hso : s.Pointwise (fun _ _ _ => True) other) (patience : ℕ) (coin : String → Bool)
    (tries : String → List (List ℝ)) (c d : SearchSpace)
    (hc : s.crossover other patience coin tries = some (c, d)) :
    c.InOrder ∧ d.InOrder ∧
      s.Pointwise (fun n a b => if a.mutatable = true ∧ a.isFidelity = false ∧ coin n = true then
        (∃ v, b.value = some v ∧ a.Accepts v) ∧ (a.IsCat → b.value = a.value)
        else b.value = a.value) c ∧
      other.Pointwise (fun n a b => if a.mutatable = true ∧ a.isFidelity = false ∧ coin n = true then
        (∃ v, b.value = some v ∧ a.Accepts v) ∧ (a.IsCat → b.value = a.value)
        else b.value = a.value) d := by
  unfold crossover at hc
  rw [Option.bind_eq_bind, Option.bind_eq_some_iff] at hc
  obtain ⟨cs, hcs, hc⟩ := hc
  simp only at hc
  split_ifs at hc with hlen
  rw [Option.bind_eq_bind, Option.bind_eq_some_iff] at hc
  obtain ⟨a', ha', hc⟩ := hc
  rw [Option.bind_eq_some_iff] at hc
  obtain ⟨b', hb', hc⟩ := hc
  simp only [Option.pure_def, Option.some.injEq, Prod.mk.injEq] at hc
  obtain ⟨rfl, rfl⟩ := hc
  have hlen : s.length = (cs.filterMap fun p => p.2.map fun c => (p.1, c.1)).length :=
    not_not.mp hlen
  -- every name has children
  have hf := mapM_forall₂ hcs
  have hcl : cs.length = s.length := hf.length_eq.symm
  have hall2 : ∀ x ∈ cs, ∃ u, x.2 = some u := by
    have hall2' : ∀ x ∈ cs, ((x.2.map fun c => (x.1, c.1)).isSome = true) := by
      have := List.filterMap_length_eq_length (l := cs)
        (f := fun p : String × Option (Hp × Hp) => p.2.map fun c => (p.1, c.1))
      exact this.mp (by rw [← hlen, hcl])
    intro x hx
    have := hall2' x hx
    rw [Option.isSome_map, Option.isSome_iff_exists] at this
    exact this
  -- the children of every name
  have hrel : List.Forall₂ (fun (p : String × Hp) (x : String × Option (Hp × Hp)) =>
      ∃ q a b, Dict.get? other p.1 = some q ∧ x = (p.1, some (a, b)) ∧
        p.2.SameDecl a ∧ p.2.SameDecl b ∧ a.Ok ∧ b.Ok ∧
        (if p.2.mutatable = true ∧ p.2.isFidelity = false ∧ coin p.1 = true then
          ((∃ v, a.value = some v ∧ p.2.Accepts v) ∧ (p.2.IsCat → a.value = p.2.value)) ∧
            (∃ v, b.value = some v ∧ p.2.Accepts v) ∧ (p.2.IsCat → b.value = q.value)
        else a.value = p.2.value ∧ b.value = q.value)) s cs := by
    apply forall₂_imp_mem hf
    rintro ⟨n, x⟩ hp ⟨n', y⟩ hx hpx
    simp only [Option.bind_eq_bind] at hpx
    rw [Option.bind_eq_some_iff] at hpx
    obtain ⟨q, hq, hpx⟩ := hpx
    rw [Option.bind_eq_some_iff] at hpx
    obtain ⟨cc, hcc, hpx⟩ := hpx
    simp only [Option.pure_def, Option.some.injEq, Prod.mk.injEq] at hpx
    obtain ⟨rfl, rfl⟩ := hpx
    obtain ⟨⟨a, b⟩, hu⟩ := hall2 _ hx
    simp only at hu
    subst hu
    have hokx := h.ok _ hp
    have hokq := ho.ok _ (Dict.mem_of_get? hq)
    have hdq : x.SameDecl q := by
      obtain ⟨q', hq', _, hd, _⟩ := forall₂_get? hso (fun p q h => h.1)
        (Dict.get?_of_mem h.nodup hp)
      rw [hq] at hq'
      simp only [Option.some.injEq] at hq'
      subst hq'
      exact hd
    refine ⟨q, a, b, hq, rfl, ?_⟩
    unfold crossoverHp at hcc
    split_ifs at hcc with hcond
    · simp only [Option.some.injEq] at hcc
      obtain ⟨ns, _, hns⟩ := List.exists_of_findSome?_eq_some hcc
      obtain ⟨⟨a1, a2, a3⟩, ⟨b1, b2, b3⟩⟩ := Hp.crossover_ok hokx hokq hdq hns
      exact ⟨a1, b1, a2, b2, by
        rw [if_pos hcond]
        exact ⟨⟨a3, fun hx => (Hp.crossover_cat hx hns).1⟩, b3,
          fun hx => (Hp.crossover_cat hx hns).2⟩⟩
    · obtain ⟨r1, hr1, e1, e2, e3⟩ := Hp.clone_ok hokx
      obtain ⟨r2, hr2, f1, f2, f3⟩ := Hp.clone_ok hokq
      simp only [hr1, hr2, Option.bind_eq_bind, Option.bind_some, Option.pure_def,
        Option.some.injEq, Prod.mk.injEq] at hcc
      obtain ⟨rfl, rfl⟩ := hcc
      exact ⟨e1, hdq.trans f1, e3, f3, by rw [if_neg hcond]; exact ⟨e2, f2⟩⟩
  -- the two children
  have hone : List.Forall₂ (fun p q : String × Hp => (q.1 = p.1 ∧ p.2.SameDecl q.2 ∧
      (if p.2.mutatable = true ∧ p.2.isFidelity = false ∧ coin p.1 = true then
        (∃ v, q.2.value = some v ∧ p.2.Accepts v) ∧ (p.2.IsCat → q.2.value = p.2.value)
        else q.2.value = p.2.value)) ∧ q.2.Ok) s
      (cs.filterMap fun p => p.2.map fun c => (p.1, c.1)) := by
    apply forall₂_filterMap
    refine List.Forall₂.imp ?_ hrel
    rintro p x ⟨q, a, b, hq, rfl, h1, h2, h3, h4, h5⟩
    refine ⟨(p.1, a), rfl, ⟨rfl, h1, ?_⟩, h3⟩
    split_ifs at h5 ⊢
    · exact h5.1
    · exact h5.1
  have htwo : List.Forall₂ (fun p q : String × Hp => (q.1 = p.1 ∧ p.2.SameDecl q.2 ∧
      ∃ o, Dict.get? other p.1 = some o ∧
      (if p.2.mutatable = true ∧ p.2.isFidelity = false ∧ coin p.1 = true then
        (∃ v, q.2.value = some v ∧ p.2.Accepts v) ∧ (p.2.IsCat → q.2.value = o.value)
        else q.2.value = o.value)) ∧ q.2.Ok) s
      (cs.filterMap fun p => p.2.map fun c => (p.1, c.2)) := by
    apply forall₂_filterMap
    refine List.Forall₂.imp ?_ hrel
    rintro p x ⟨q, a, b, hq, rfl, h1, h2, h3, h4, h5⟩
    refine ⟨(p.1, b), rfl, ⟨rfl, h2, q, hq, ?_⟩, h4⟩
    split_ifs at h5 ⊢
    · exact h5.2
    · exact h5.2
  have hd1 : List.Forall₂ (fun p q : String × Hp => q.1 = p.1 ∧ p.2.SameDecl q.2) s
      (cs.filterMap fun p => p.2.map fun c => (p.1, c.1)) :=
    List.Forall₂.imp (fun _ _ h => ⟨h.1.1, h.1.2.1⟩) hone
  have hd2 : List.Forall₂ (fun p q : String × Hp => q.1 = p.1 ∧ p.2.SameDecl q.2) s
      (cs.filterMap fun p => p.2.map fun c => (p.1, c.2)) :=
    List.Forall₂.imp (fun _ _ h => ⟨h.1.1, h.1.2.1⟩) htwo
  rw [h.make hd1] at ha'
  rw [h.make hd2] at hb'
  simp only [Option.some.injEq] at ha' hb'
  subst ha' hb'
  refine ⟨h.of hd1 ?_, h.of hd2 ?_, List.Forall₂.imp (fun _ _ h => h.1) hone, ?_⟩
  · intro q hq
    obtain ⟨p, _, hp⟩ := forall₂_mem_right hone q hq
    exact hp.2
  · intro q hq
    obtain ⟨p, _, hp⟩ := forall₂_mem_right htwo q hq
    exact hp.2
  · have hsym : List.Forall₂ (fun q p : String × Hp => p.1 = q.1 ∧ q.2.SameDecl p.2) other s :=
      List.Forall₂.flip (List.Forall₂.imp (fun p q h => ⟨h.1.symm, h.2.1.symm⟩) hso)
    refine forall₂_imp_mem (forall₂_trans hsym htwo) ?_
    rintro ⟨n, o⟩ hno q _ ⟨p, ⟨p1, p2⟩, ⟨q1, q2, o', ho', q3⟩, _⟩
    have : o' = o := by
      rw [p1, Dict.get?_of_mem ho.nodup hno] at ho'
      simpa using ho'.symm
    subst this
    refine ⟨by rw [q1, p1], p2.trans q2, ?_⟩
    rw [p2.mutatable, p2.isFidelity, p1, p2.isCat] at q3
    simp only at q3 ⊢
    split_ifs at q3 ⊢
    · obtain ⟨⟨v, hv, hav⟩, hcat⟩ := q3
      exact ⟨⟨v, hv, (p2.accepts v).mpr hav⟩, hcat⟩
    · exact q3

/-- **C62, success**: crossover succeeds if every parameter that is crossed over has an attempt
that succeeds. -/
theorem C62_crossover_progress (s other : SearchSpace) (h : s.InOrder) (ho : other.InOrder)
    (hso : s.Pointwise (fun _ _ _ => True) other) (patience : ℕ) (coin : String → Bool)
    (tries : String → List (List ℝ))
    (ht : ∀ p ∈ s, p.2.mutatable = true → p.2.isFidelity = false → coin p.1 = true →
      ∃ q, Dict.get? other p.1 = some q ∧
        ∃ ns ∈ (tries p.1).take patience, p.2.crossover ns q ≠ none) :
    ∃ c d, s.crossover other patience coin tries = some (c, d) := by
  have hall : ∀ p ∈ s, ∃ q a b, Dict.get? other p.1 = some q ∧ p.2.SameDecl a ∧ p.2.SameDecl b ∧
      crossoverHp patience (coin p.1) (tries p.1) p.2 q = some (some (a, b)) := by
    intro p hp
    obtain ⟨q, hq, _, hdq, _⟩ := forall₂_get? hso (fun p q h => h.1)
      (Dict.get?_of_mem h.nodup hp)
    have hokp := h.ok _ hp
    have hokq := ho.ok _ (Dict.mem_of_get? hq)
    unfold crossoverHp
    by_cases hcond : p.2.mutatable = true ∧ p.2.isFidelity = false ∧ coin p.1 = true
    · obtain ⟨q', hq', ns, hns, hne⟩ := ht p hp hcond.1 hcond.2.1 hcond.2.2
      rw [hq] at hq'
      simp only [Option.some.injEq] at hq'
      subst hq'
      cases hf : ((tries p.1).take patience).findSome? fun normals => p.2.crossover normals q with
      | none =>
        rw [List.findSome?_eq_none_iff] at hf
        exact absurd (hf ns hns) hne
      | some ab =>
        obtain ⟨ns', _, hns'⟩ := List.exists_of_findSome?_eq_some hf
        obtain ⟨⟨a1, _⟩, ⟨b1, _⟩⟩ := Hp.crossover_ok hokp hokq hdq hns'
        exact ⟨q, ab.1, ab.2, hq, a1, b1, by rw [if_pos hcond, hf]⟩
    · obtain ⟨r1, hr1, e1, _⟩ := Hp.clone_ok hokp
      obtain ⟨r2, hr2, f1, _⟩ := Hp.clone_ok hokq
      exact ⟨q, r1, r2, hq, e1, hdq.trans f1, by rw [if_neg hcond, hr1, hr2]; rfl⟩
  obtain ⟨cs, hcs⟩ : ∃ cs, s.mapM (fun p : String × Hp => do
      let q ← Dict.get? other p.1
      let c ← crossoverHp patience (coin p.1) (tries p.1) p.2 q
      return (p.1, c)) = some cs := by
    apply mapM_total
    intro p hp
    obtain ⟨q, a, b, h1, _, _, h2⟩ := hall p hp
    exact ⟨(p.1, some (a, b)), by simp [h1, h2]⟩
  have hrel : List.Forall₂ (fun (p : String × Hp) (x : String × Option (Hp × Hp)) =>
      ∃ a b, x = (p.1, some (a, b)) ∧ p.2.SameDecl a ∧ p.2.SameDecl b) s cs := by
    apply forall₂_imp_mem (mapM_forall₂ hcs)
    intro p hp x _ hx
    obtain ⟨q, a, b, h1, h2, h3, h4⟩ := hall p hp
    simp only [h1, h4, Option.bind_eq_bind, Option.bind_some, Option.pure_def,
      Option.some.injEq] at hx
    exact ⟨a, b, hx.symm, h2, h3⟩
  have hone : List.Forall₂ (fun p q : String × Hp => q.1 = p.1 ∧ p.2.SameDecl q.2) s
      (cs.filterMap fun p => p.2.map fun c => (p.1, c.1)) := by
    apply forall₂_filterMap
    refine List.Forall₂.imp ?_ hrel
    rintro p x ⟨a, b, rfl, h1, h2⟩
    exact ⟨(p.1, a), rfl, rfl, h1⟩
  have htwo : List.Forall₂ (fun p q : String × Hp => q.1 = p.1 ∧ p.2.SameDecl q.2) s
      (cs.filterMap fun p => p.2.map fun c => (p.1, c.2)) := by
    apply forall₂_filterMap
    refine List.Forall₂.imp ?_ hrel
    rintro p x ⟨a, b, rfl, h1, h2⟩
    exact ⟨(p.1, b), rfl, rfl, h2⟩
  refine ⟨cs.filterMap fun p => p.2.map fun c => (p.1, c.1),
    cs.filterMap fun p => p.2.map fun c => (p.1, c.2), ?_⟩
  unfold crossover
  rw [Option.bind_eq_bind, hcs, Option.bind_some]
  simp only
  rw [if_neg (by rw [not_not]; exact hone.length_eq), h.make hone, h.make htwo]
  rfl

/-- Two configurations of the demonstration space whose activation function is crossed over. -/
example : ∃ c d, demoSpace.crossover demoSpace 50 (fun n => n == "act") (fun _ => [[]]) =
    some (c, d) := by
  refine C62_crossover_progress _ _ demoSpace_inOrder demoSpace_inOrder ?_ _ _ _ ?_
  · exact List.forall₂_same.mpr fun p _ => ⟨rfl, Hp.SameDecl.refl _, trivial⟩
  · simp only [demoSpace, List.mem_cons, List.not_mem_nil, or_false]
    rintro p (rfl | rfl | rfl)
    · intro _ _ _
      refine ⟨.cat demoAct, by simp [Dict.get?], [], by simp, ?_⟩
      simp [Hp.crossover, CatParam.crossover, CatParam.clone, CatParam.make, CatParam.setValue,
        CatParam.index, demoAct, List.findIdx?_cons]
    · simp
    · simp

/-- **C62 fails** as an exchange: crossover passes the other parent as first parent, so that the
swap of the values of categorical parameters is undone; the children of two categorical
configurations are copies of the parents. -/
theorem C62_categorical_exchange_fails (s other : SearchSpace) (h : s.InOrder) (ho : other.InOrder)
    (hso : s.Pointwise (fun _ _ _ => True) other) (hcat : ∀ p ∈ s, p.2.IsCat) (patience : ℕ)
    (coin : String → Bool) (tries : String → List (List ℝ)) (c d : SearchSpace)
    (hc : s.crossover other patience coin tries = some (c, d)) :
    s.Pointwise (fun _ a b => b.value = a.value) c ∧
      other.Pointwise (fun _ a b => b.value = a.value) d := by
  obtain ⟨_, _, h1, h2⟩ := C62_crossover s other h ho hso patience coin tries c d hc
  constructor
  · apply forall₂_imp_mem h1
    rintro p hp q _ ⟨e1, e2, e3⟩
    refine ⟨e1, e2, ?_⟩
    split_ifs at e3
    · exact e3.2 (hcat p hp)
    · exact e3
  · apply forall₂_imp_mem h2
    rintro p hp q _ ⟨e1, e2, e3⟩
    obtain ⟨p', hp', _, hd, _⟩ := forall₂_mem_right hso p hp
    refine ⟨e1, e2, ?_⟩
    split_ifs at e3
    · exact e3.2 (hd.isCat.mpr (hcat p' hp'))
    · exact e3

/-! ## C63: the default configuration -/

/-- One default. -/
theorem setOne_ok {s : SearchSpace} (h : s.InOrder) {k : String} {v : Val} {a : Hp}
    (ha : Dict.get? s k = some a) (hv : a.Accepts v) :
    (a.setValue v).raised = false ∧ InOrder (Dict.set s k (a.setValue v).st) ∧
      s.Pointwise (fun n x y => y.value = if n = k then some v else x.value)
        (Dict.set s k (a.setValue v).st) := by
  have hok := h.ok (k, a) (Dict.mem_of_get? ha)
  obtain ⟨l1, l2, l3, l4⟩ := Hp.setValue_ok hok hv
  have hset := Dict.set_forall₂ s k (a.setValue v).st (Dict.get?_mem_keys ha)
  have hall : List.Forall₂ (fun p q : String × Hp => (q.1 = p.1 ∧ p.2.SameDecl q.2 ∧
      q.2.value = if p.1 = k then some v else p.2.value) ∧ q.2.Ok) s
        (Dict.set s k (a.setValue v).st) := by
    apply forall₂_imp_mem hset
    rintro ⟨n, x⟩ hp q _ ⟨h1, h2, h3⟩
    by_cases hc : n = k
    · subst hc
      have : x = a := by
        have := Dict.get?_of_mem h.nodup hp
        rw [ha] at this
        simpa using this.symm
      subst this
      rw [h2 rfl]
      exact ⟨⟨h1, l3, by simp [l2]⟩, l4⟩
    · rw [h3 hc]
      exact ⟨⟨h1, Hp.SameDecl.refl _, by simp [hc]⟩, h.ok _ hp⟩
  have hd : List.Forall₂ (fun p q : String × Hp => q.1 = p.1 ∧ p.2.SameDecl q.2) s
      (Dict.set s k (a.setValue v).st) := List.Forall₂.imp (fun _ _ h => ⟨h.1.1, h.1.2.1⟩) hall
  refine ⟨l1, h.of hd ?_, List.Forall₂.imp (fun _ _ h => h.1) hall⟩
  intro q hq
  obtain ⟨p, _, hp⟩ := forall₂_mem_right hall q hq
  exact hp.2

/-- The value `defaultOne` asks for. -/
noncomputable def wanted (ignoreFidelity : Bool) (a : Hp) : Option Val :=
  if a.isFidelity = true ∧ ignoreFidelity = true then none else a.dflt

theorem defaultOne_ok {t : SearchSpace} (h : t.InOrder) (ignoreFidelity ignoreMissing : Bool)
    {k : String} {a b : Hp} (hb : Dict.get? t k = some b) (hd : a.SameDecl b) (ha : a.Ok)
    (hm : (a.isFidelity = true ∧ ignoreFidelity = true) ∨ ignoreMissing = true ∨ a.dflt ≠ none) :
    ∃ c, defaultOne ignoreFidelity ignoreMissing t (k, a) = some c ∧ c.InOrder ∧
      t.Pointwise (fun n x y =>
        y.value = if n = k then (wanted ignoreFidelity a).or x.value else x.value) c := by
  have hid : t.Pointwise (fun n x y =>
      y.value = if n = k then (none : Option Val).or x.value else x.value) t := by
    unfold Pointwise
    rw [List.forall₂_same]
    intro p _
    exact ⟨rfl, Hp.SameDecl.refl _, by simp⟩
  unfold defaultOne wanted
  simp only
  by_cases hf : a.isFidelity = true ∧ ignoreFidelity = true
  · rw [if_pos hf, if_pos hf]
    exact ⟨t, rfl, h, hid⟩
  · rw [if_neg hf, if_neg hf]
    cases hdf : a.dflt with
    | none =>
      have him : ignoreMissing = true := by
        rcases hm with hm | hm | hm
        · exact absurd hm hf
        · exact hm
        · exact absurd hdf hm
      simp only [him, if_true]
      exact ⟨t, rfl, h, hid⟩
    | some v =>
      obtain ⟨s1, s2, s3⟩ := setOne_ok h hb ((hd.accepts v).mp (ha.dflt v hdf))
      refine ⟨_, by simp [hb, s1], s2, ?_⟩
      simpa using s3

theorem defaults_ok (ignoreFidelity ignoreMissing : Bool) (l : Dict Hp) :
    ∀ {t : SearchSpace}, t.InOrder → (Dict.keys l).Nodup →
    (∀ p ∈ l, p.2.Ok ∧ ∃ b, Dict.get? t p.1 = some b ∧ p.2.SameDecl b) →
    (∀ p ∈ l, (p.2.isFidelity = true ∧ ignoreFidelity = true) ∨ ignoreMissing = true ∨
      p.2.dflt ≠ none) →
    ∃ c, l.foldlM (defaultOne ignoreFidelity ignoreMissing) t = some c ∧ c.InOrder ∧
      t.Pointwise (fun n x y => y.value =
        ((Dict.get? l n).bind (wanted ignoreFidelity)).or x.value) c := by
  induction l with
  | nil =>
    intro t h _ _ _
    refine ⟨t, by simp, h, ?_⟩
    unfold Pointwise
    rw [List.forall₂_same]
    intro p _
    exact ⟨rfl, Hp.SameDecl.refl _, by simp [Dict.get?]⟩
  | cons kv l ih =>
    intro t h hn hv hm
    obtain ⟨k, a⟩ := kv
    obtain ⟨hao, b, hb, hab⟩ := hv (k, a) (by simp)
    obtain ⟨u, hu, huo, hup⟩ := defaultOne_ok h ignoreFidelity ignoreMissing hb hab hao
      (hm (k, a) (by simp))
    have hn' : k ∉ Dict.keys l ∧ (Dict.keys l).Nodup := by
      have := hn
      simp only [Dict.keys, List.map_cons, List.nodup_cons] at this
      exact this
    obtain ⟨c, hc, hco, hcp⟩ := ih huo hn'.2 (by
      rintro ⟨k', v'⟩ hkv
      obtain ⟨h1, b, hb, hbv⟩ := hv (k', v') (by simp [hkv])
      obtain ⟨b', hb', _, hd, _⟩ := forall₂_get? hup (fun p q h => h.1) hb
      exact ⟨h1, b', hb', hbv.trans hd⟩) (fun p hp => hm p (by simp [hp]))
    refine ⟨c, ?_, hco, ?_⟩
    · simp only at hu
      simp [List.foldlM_cons, hu, hc]
    refine List.Forall₂.imp ?_ (forall₂_trans hup hcp)
    rintro p q ⟨r, ⟨r1, r2, r3⟩, ⟨q1, q2, q3⟩⟩
    refine ⟨by rw [q1, r1], r2.trans q2, ?_⟩
    simp only
    rw [q3, r1, r3]
    unfold Dict.get?
    rw [List.find?_cons]
    by_cases hk : p.1 = k
    · have hnone : Dict.get? l p.1 = none := by
        rw [hk]; exact Dict.get?_none hn'.1
      unfold Dict.get? at hnone
      rw [hnone]
      simp [hk]
    · have hk' : ¬ k = p.1 := fun e => hk e.symm
      simp [hk, hk']

theorem defaults_none (ignoreFidelity ignoreMissing : Bool) (l : Dict Hp) :
    ∀ (t : SearchSpace),
    (∃ p ∈ l, ¬ (p.2.isFidelity = true ∧ ignoreFidelity = true) ∧ ignoreMissing = false ∧
      p.2.dflt = none) →
    l.foldlM (defaultOne ignoreFidelity ignoreMissing) t = none := by
  induction l with
  | nil => intro t h; obtain ⟨p, hp, _⟩ := h; simp at hp
  | cons kv l ih =>
    intro t h
    obtain ⟨p, hp, h1, h2, h3⟩ := h
    rw [List.foldlM_cons, Option.bind_eq_bind]
    rcases List.mem_cons.mp hp with rfl | hp
    · have : defaultOne ignoreFidelity ignoreMissing t p = none := by
        unfold defaultOne
        rw [if_neg h1, h3]
        simp [h2]
      rw [this]; rfl
    · cases defaultOne ignoreFidelity ignoreMissing t kv with
      | none => rfl
      | some u => exact ih u ⟨p, hp, h1, h2, h3⟩

/-- **C63**: in the default configuration every parameter with a default has it as value, the
others have some legal value; an ignored fidelity keeps its value. -/
theorem C63_default (s : SearchSpace) (h : s.InOrder) (ignoreFidelity ignoreMissing : Bool)
    (patience : ℕ) (draws : String → List Draw) (c : SearchSpace)
    (hc : s.defaultConfiguration ignoreFidelity ignoreMissing patience draws = some c) :
    c.InOrder ∧ s.Pointwise (fun _ a b =>
      if a.isFidelity = true ∧ ignoreFidelity = true then b.value = a.value
      else match a.dflt with
        | some v => b.value = some v
        | none => ∃ v, b.value = some v ∧ a.Accepts v) c := by
  unfold defaultConfiguration at hc
  rw [Option.bind_eq_bind, Option.bind_eq_some_iff] at hc
  obtain ⟨t, ht, hc⟩ := hc
  obtain ⟨hto, htp⟩ := C59_sample s h false ignoreFidelity patience draws t ht
  have hm : ∀ p ∈ s, (p.2.isFidelity = true ∧ ignoreFidelity = true) ∨ ignoreMissing = true ∨
      p.2.dflt ≠ none := by
    by_contra hcon
    push Not at hcon
    obtain ⟨p, hp, h1, h2, h3⟩ := hcon
    rw [defaults_none ignoreFidelity ignoreMissing s t
      ⟨p, hp, fun hh => h1 hh.1 hh.2, by simpa using h2, h3⟩] at hc
    simp at hc
  obtain ⟨c', hc', hco, hcp⟩ := defaults_ok ignoreFidelity ignoreMissing s hto h.nodup (by
    rintro ⟨k, a⟩ hp
    obtain ⟨b, hb, _, hd, _⟩ := forall₂_get? htp (fun p q h => h.1) (Dict.get?_of_mem h.nodup hp)
    exact ⟨h.ok _ hp, b, hb, hd⟩) hm
  rw [hc] at hc'
  simp only [Option.some.injEq] at hc'
  subst hc'
  refine ⟨hco, ?_⟩
  refine forall₂_imp_mem (forall₂_trans htp hcp) ?_
  rintro ⟨k, a⟩ hp q _ ⟨r, ⟨r1, r2, r3⟩, ⟨q1, q2, q3⟩⟩
  refine ⟨by rw [q1, r1], r2.trans q2, ?_⟩
  simp only at r1 r3 ⊢
  rw [r1, Dict.get?_of_mem h.nodup hp, Option.bind_some] at q3
  unfold wanted at q3
  split_ifs at q3 r3 ⊢ with hf
  · rw [q3]; simpa using r3
  · cases hdf : a.dflt with
    | some v => simp only; rw [q3, hdf]; rfl
    | none =>
      simp only
      obtain ⟨v, hv, hav⟩ := r3
      exact ⟨v, by rw [q3, hdf, Option.none_or, hv], hav⟩

/-- **C63, missing defaults**: unless they are to be ignored, a parameter without a default makes
the call fail. -/
theorem C63_missing_raises (s : SearchSpace) (ignoreFidelity : Bool)
    (patience : ℕ) (draws : String → List Draw)
    (hm : ∃ p ∈ s, ¬ (p.2.isFidelity = true ∧ ignoreFidelity = true) ∧ p.2.dflt = none) :
    s.defaultConfiguration ignoreFidelity false patience draws = none := by
  unfold defaultConfiguration
  obtain ⟨p, hp, h1, h2⟩ := hm
  cases s.sample false ignoreFidelity patience draws with
  | none => rfl
  | some t => exact defaults_none ignoreFidelity false s t ⟨p, hp, h1, rfl, h2⟩

/-- **C63, success**: otherwise the call succeeds. -/
theorem C63_default_total (s : SearchSpace) (h : s.InOrder) (ignoreFidelity ignoreMissing : Bool)
    (patience : ℕ) (hp : 1 ≤ patience) (draws : String → List Draw)
    (hd : ∀ p ∈ s, ∃ d ds, draws p.1 = d :: ds ∧ p.2.Drawable d)
    (hm : ∀ p ∈ s, (p.2.isFidelity = true ∧ ignoreFidelity = true) ∨ ignoreMissing = true ∨
      p.2.dflt ≠ none) :
    ∃ c, s.defaultConfiguration ignoreFidelity ignoreMissing patience draws = some c := by
  obtain ⟨t, ht⟩ := C59_sample_total s h false ignoreFidelity patience hp draws hd
  obtain ⟨hto, htp⟩ := C59_sample s h false ignoreFidelity patience draws t ht
  obtain ⟨c', hc', hco, hcp⟩ := defaults_ok ignoreFidelity ignoreMissing s hto h.nodup (by
    rintro ⟨k, a⟩ hp
    obtain ⟨b, hb, _, hd, _⟩ := forall₂_get? htp (fun p q h => h.1) (Dict.get?_of_mem h.nodup hp)
    exact ⟨h.ok _ hp, b, hb, hd⟩) hm
  exact ⟨c', by unfold defaultConfiguration; simp [ht, hc']⟩

/-- The default configuration of the demonstration space, with and without its fidelity. -/
example : (∃ c, demoSpace.defaultConfiguration true false 100 (fun _ => [⟨1 / 2, 1, 0⟩]) = some c) ∧
    demoSpace.defaultConfiguration false false 100 (fun _ => [⟨1 / 2, 1, 0⟩]) = none := by
  constructor
  · refine C63_default_total _ demoSpace_inOrder _ _ _ (by norm_num) _ ?_ ?_
    · simp [demoSpace, Hp.Drawable, demoAct]
    · simp [demoSpace, Hp.isFidelity, Hp.dflt, demoAct, demoEpochs, demoLr]
  · refine C63_missing_raises _ _ _ _ ⟨("epochs", .int demoEpochs), by simp [demoSpace], ?_, ?_⟩
    · simp
    · simp [Hp.dflt, demoEpochs]

end SearchSpace

end Verif.Space
