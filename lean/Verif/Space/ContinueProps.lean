import Verif.Space.Continue
import Verif.Space.SpaceProps

/-!
# C163: continuing a run with another search space
-/

namespace Verif.Space

/-! ## Lemmas -/

namespace Hp

/-- Is it an integer parameter? -/
def HoldsInt : Hp → Prop
  | int _ => True
  | _ => False

/-- In order, except that an integer parameter may hold any integer. -/
structure Fair (h : Hp) : Prop where
  used : match h with
    | float p => p.Used
    | int p => p.Used
    | cat p => p.Used
    | const p => p.dflt = p.value
  value : ¬ h.HoldsInt → ∀ v, h.value = some v → h.Accepts v
  dflt : ∀ v, h.dflt = some v → h.Accepts v

theorem Ok.fair {h : Hp} (hok : h.Ok) : h.Fair := ⟨hok.used, fun _ => hok.value, hok.dflt⟩

theorem Fair.ok {h : Hp} (hf : h.Fair) (hv : ∀ v, h.value = some v → h.Accepts v) : h.Ok :=
  ⟨hf.used, hv, hf.dflt⟩

theorem loadFrom_fair {h : Hp} (hf : h.Fair) {v : Val} (hr : (h.loadFrom v).raised = false) :
    h.SameDecl (h.loadFrom v).st ∧ (h.loadFrom v).st.Fair := by
  have other : ¬ h.HoldsInt → (h.setValue v).raised = false →
      h.SameDecl (h.setValue v).st ∧ (h.setValue v).st.Fair := by
    intro hi hr
    have ha : h.Accepts v := by
      by_contra hn
      rw [setValue_raises hn (by rintro p x rfl; exact absurd trivial hi)] at hr
      exact absurd hr (by simp)
    obtain ⟨-, -, h1, h2⟩ := setValue_ok (hf.ok (hf.value hi)) ha
    exact ⟨h1, h2.fair⟩
  cases h with
  | int p =>
    cases v with
    | num x =>
      refine ⟨by simp [Hp.loadFrom, IntParam.loadFrom, Call.lift, SameDecl], ?_, ?_, ?_⟩
      · have : p.Used := hf.used
        exact IntParam.Used.loadFrom x this
      · intro hn; exact absurd trivial hn
      · exact hf.dflt
    | str t => simp [Hp.loadFrom, Hp.setValue] at hr
  | float p => exact other (by simp [HoldsInt]) hr
  | cat p => exact other (by simp [HoldsInt]) hr
  | const p => exact other (by simp [HoldsInt]) hr

theorem clone_fair {h q : Hp} (hf : h.Fair) (hq : h.clone = some q) :
    h.SameDecl q ∧ q.value = h.value ∧ q.Ok := by
  have hok : h.Ok := by
    apply hf.ok
    cases h with
    | int p =>
      simp only [Hp.clone, Option.map_eq_some_iff] at hq
      obtain ⟨r, hr, -⟩ := hq
      obtain ⟨-, -, -, e4, e5⟩ := IntParam.clone_some hr
      intro v hv
      simp only [Hp.value, Option.map_eq_some_iff] at hv
      obtain ⟨n, hn, rfl⟩ := hv
      exact ⟨n, rfl, e5 n (by rw [e4, hn])⟩
    | float p => exact hf.value (by simp [HoldsInt])
    | cat p => exact hf.value (by simp [HoldsInt])
    | const p => exact hf.value (by simp [HoldsInt])
  obtain ⟨r, hr, h1, h2, h3⟩ := clone_ok hok
  rw [hq] at hr
  simp only [Option.some.injEq] at hr
  subst hr
  exact ⟨h1, h2, h3⟩

end Hp

namespace SearchSpace

theorem loadOne_fair {s t : SearchSpace} (hn : (Dict.keys s).Nodup) (hs : ∀ p ∈ s, p.2.Fair)
    {kv : String × Val} (h : loadOne s kv = some t) :
    List.Forall₂ (fun p q : String × Hp => q.1 = p.1 ∧ p.2.SameDecl q.2) s t ∧ ∀ q ∈ t, q.2.Fair := by
  unfold loadOne at h
  rw [Option.bind_eq_bind, Option.bind_eq_some_iff] at h
  obtain ⟨a, ha, h⟩ := h
  simp only at h
  split_ifs at h with hr
  simp only [Option.pure_def, Option.some.injEq] at h
  subst h
  simp only [Bool.not_eq_true] at hr
  have hset := Dict.set_forall₂ s kv.1 (a.loadFrom kv.2).st (Dict.get?_mem_keys ha)
  obtain ⟨l1, l2⟩ := Hp.loadFrom_fair (hs _ (Dict.mem_of_get? ha)) hr
  have hall : List.Forall₂ (fun p q : String × Hp => (q.1 = p.1 ∧ p.2.SameDecl q.2) ∧ q.2.Fair) s
      (Dict.set s kv.1 (a.loadFrom kv.2).st) := by
    apply forall₂_imp_mem hset
    rintro ⟨n, x⟩ hp q _ ⟨h1, h2, h3⟩
    by_cases hc : n = kv.1
    · have : x = a := by
        have := Dict.get?_of_mem hn hp
        rw [hc, ha] at this
        simpa using this.symm
      subst this
      rw [h2 hc]
      exact ⟨⟨h1, l1⟩, l2⟩
    · rw [h3 hc]
      exact ⟨⟨h1, Hp.SameDecl.refl _⟩, hs _ hp⟩
  refine ⟨List.Forall₂.imp (fun _ _ h => h.1) hall, ?_⟩
  intro q hq
  obtain ⟨p, _, hp⟩ := forall₂_mem_right hall q hq
  exact hp.2

theorem fromDict_fair {s c : SearchSpace} (h : s.InOrder) {config : Dict Val}
    (hc : s.fromDict config = some c) :
    List.Forall₂ (fun p q : String × Hp => q.1 = p.1 ∧ p.2.SameDecl q.2) s c ∧ ∀ q ∈ c, q.2.Fair := by
  obtain ⟨t, ht, hto, htp⟩ := clone_ok h
  unfold fromDict at hc
  simp only [ht, Option.bind_eq_bind, Option.bind_some] at hc
  have gen : ∀ (config : Dict Val) (t : SearchSpace),
      List.Forall₂ (fun p q : String × Hp => q.1 = p.1 ∧ p.2.SameDecl q.2) s t →
      (∀ q ∈ t, q.2.Fair) → config.foldlM loadOne t = some c →
      List.Forall₂ (fun p q : String × Hp => q.1 = p.1 ∧ p.2.SameDecl q.2) s c ∧
        ∀ q ∈ c, q.2.Fair := by
    intro config
    induction config with
    | nil =>
      intro t h1 h2 h3
      simp only [List.foldlM_nil, Option.pure_def, Option.some.injEq] at h3
      subst h3
      exact ⟨h1, h2⟩
    | cons kv config ih =>
      intro t h1 h2 h3
      rw [List.foldlM_cons, Option.bind_eq_bind, Option.bind_eq_some_iff] at h3
      obtain ⟨u, hu, h3⟩ := h3
      have hn : (Dict.keys t).Nodup := by
        rw [forall₂_keys_eq h1 (fun p q h => h.1)]; exact h.nodup
      obtain ⟨u1, u2⟩ := loadOne_fair hn h2 hu
      refine ih u ?_ u2 h3
      refine List.Forall₂.imp ?_ (forall₂_trans h1 u1)
      rintro p q ⟨r, r1, r2⟩
      exact ⟨r2.1.trans r1.1, r1.2.trans r2.2⟩
  exact gen config t htp.decl (fun q hq => (hto.ok q hq).fair) hc

/-- What promotion hands out. -/
theorem promote_some {s c : SearchSpace} (h : s.InOrder)
    (hc : List.Forall₂ (fun p q : String × Hp => q.1 = p.1 ∧ p.2.SameDecl q.2) s c)
    (hf : ∀ q ∈ c, q.2.Fair) {b : Val} (hb : ∀ p ∈ s, p.2.isFidelity = true → p.2.Accepts b)
    {d : Dict (Option Val)} (hp : c.promote b = some d) :
    ∃ m, List.Forall₂ (fun p q : String × Hp => q.1 = p.1 ∧ p.2.SameDecl q.2) s m ∧
      (∀ q ∈ m, q.2.Ok) ∧ d = hpValues m := by
  unfold promote at hp
  rw [Option.bind_eq_bind, Option.bind_eq_some_iff] at hp
  obtain ⟨m, hm, hp⟩ := hp
  rw [Option.bind_eq_bind, Option.bind_eq_some_iff] at hp
  obtain ⟨f, hfid, hp⟩ := hp
  simp only at hp
  split_ifs at hp with hr
  simp only [Option.some.injEq] at hp
  unfold clone at hm
  rw [Option.bind_eq_bind, Option.bind_eq_some_iff] at hm
  obtain ⟨m', hm', hmk⟩ := hm
  have hall : List.Forall₂ (fun p q : String × Hp => (q.1 = p.1 ∧ p.2.SameDecl q.2) ∧ q.2.Ok) c m' := by
    apply forall₂_imp_mem (mapM_forall₂ hm')
    intro p hp q _ hpq
    simp only [Option.map_eq_some_iff] at hpq
    obtain ⟨q', hq', rfl⟩ := hpq
    obtain ⟨h1, -, h3⟩ := Hp.clone_fair (hf p hp) hq'
    exact ⟨⟨rfl, h1⟩, h3⟩
  have hd : List.Forall₂ (fun p q : String × Hp => q.1 = p.1 ∧ p.2.SameDecl q.2) s m' := by
    refine List.Forall₂.imp ?_ (forall₂_trans hc hall)
    rintro p q ⟨r, r1, r2⟩
    exact ⟨r2.1.1.trans r1.1, r1.2.trans r2.1.2⟩
  have hok : ∀ q ∈ m', q.2.Ok := by
    intro q hq
    obtain ⟨p, _, hp⟩ := forall₂_mem_right hall q hq
    exact hp.2
  rw [h.make hd] at hmk
  simp only [Option.some.injEq] at hmk
  subst hmk
  have hfm : f ∈ m' := List.mem_of_find?_eq_some hfid
  have hff : f.2.isFidelity = true := by simpa using List.find?_some hfid
  obtain ⟨p, hps, hp1, hp2⟩ := forall₂_mem_right hd f hfm
  have hacc : f.2.Accepts b := (hp2.accepts b).mp (hb p hps (by rw [← hp2.isFidelity]; exact hff))
  obtain ⟨-, -, s3, s4⟩ := Hp.setValue_ok (hok f hfm) hacc
  have hn : (Dict.keys m').Nodup := by
    rw [forall₂_keys_eq hd (fun p q h => h.1)]; exact h.nodup
  have hset := Dict.set_forall₂ m' f.1 (f.2.setValue b).st
    (List.mem_map_of_mem (f := Prod.fst) hfm)
  have hall' : List.Forall₂ (fun p q : String × Hp => (q.1 = p.1 ∧ p.2.SameDecl q.2) ∧ q.2.Ok) m'
      (Dict.set m' f.1 (f.2.setValue b).st) := by
    apply forall₂_imp_mem hset
    rintro ⟨n, x⟩ hx q _ ⟨h1, h2, h3⟩
    by_cases hc : n = f.1
    · have : x = f.2 := by
        have e1 := Dict.get?_of_mem hn hx
        have e2 := Dict.get?_of_mem hn (show (f.1, f.2) ∈ m' from hfm)
        rw [hc, e2] at e1
        simpa using e1.symm
      subst this
      rw [h2 hc]
      exact ⟨⟨h1, s3⟩, s4⟩
    · rw [h3 hc]
      exact ⟨⟨h1, Hp.SameDecl.refl _⟩, hok _ hx⟩
  refine ⟨_, ?_, ?_, hp.symm⟩
  · refine List.Forall₂.imp ?_ (forall₂_trans hd hall')
    rintro p q ⟨r, r1, r2⟩
    exact ⟨r2.1.1.trans r1.1, r1.2.trans r2.1.2⟩
  · intro q hq
    obtain ⟨p, _, hp⟩ := forall₂_mem_right hall' q hq
    exact hp.2

theorem hpValues_get? (c : SearchSpace) (k : String) :
    Dict.get? (hpValues c) k = (Dict.get? c k).map Hp.value := by
  unfold hpValues Dict.get?
  induction c with
  | nil => rfl
  | cons p c ih =>
    rw [List.map_cons, List.find?_cons, List.find?_cons]
    by_cases hp : p.1 = k
    · simp [hp]
    · simp only [hp, decide_false]
      exact ih

/-! ## C163 -/

/-- **C163, unknown names**: a run with a configuration that has a name the new search space does not have
cannot be continued. -/
theorem C163_unknown_refused (s : SearchSpace) (h : s.InOrder) (stored : List (Dict Val))
    (config : Dict Val) (hc : config ∈ stored) (k : String) (hk : k ∈ config.keys)
    (hs : k ∉ Dict.keys s) : s.readRun stored = none := by
  by_contra hne
  obtain ⟨cs, hcs⟩ := Option.ne_none_iff_exists'.mp hne
  obtain ⟨c, -, hcc⟩ := forall₂_mem_left (mapM_forall₂ hcs) config hc
  rw [C60_unknown_rejected s h config k hk hs] at hcc
  exact absurd hcc (by simp)

/-- A stored configuration with a momentum, which the demonstration space does not have. -/
example : demoSpace.readRun [[("lr", .num 5)], [("lr", .num 2), ("momentum", .num 5)]] = none :=
  C163_unknown_refused _ demoSpace_inOrder _ [("lr", .num 2), ("momentum", .num 5)] (by simp) "momentum" (by simp [Dict.keys])
    (by simp [Dict.keys, demoSpace])

/-- **C163, illegal values**: a run with a configuration whose value for a float, categorical or constant
parameter is not legal in the new search space cannot be continued. -/
theorem C163_illegal_refused (s : SearchSpace) (h : s.InOrder) (stored : List (Dict Val))
    (config : Dict Val) (hc : config ∈ stored) (k : String) (v : Val) (hk : (k, v) ∈ config) (a : Hp)
    (ha : Dict.get? s k = some a) (hi : ¬ a.HoldsInt) (hv : ¬ a.Accepts v) : s.readRun stored = none := by
  by_contra hne
  obtain ⟨cs, hcs⟩ := Option.ne_none_iff_exists'.mp hne
  obtain ⟨c, -, hcc⟩ := forall₂_mem_left (mapM_forall₂ hcs) config hc
  obtain ⟨t, ht, hto, htp⟩ := clone_ok h
  unfold fromDict at hcc
  simp only [ht, Option.bind_eq_bind, Option.bind_some] at hcc
  have gen : ∀ (config : Dict Val) (t : SearchSpace),
      List.Forall₂ (fun p q : String × Hp => q.1 = p.1 ∧ p.2.SameDecl q.2) s t →
      (∀ q ∈ t, q.2.Fair) → (k, v) ∈ config → config.foldlM loadOne t ≠ some c := by
    intro config
    induction config with
    | nil => intro t _ _ hk; simp at hk
    | cons kv config ih =>
      intro t h1 h2 hk h3
      rw [List.foldlM_cons, Option.bind_eq_bind, Option.bind_eq_some_iff] at h3
      obtain ⟨u, hu, h3⟩ := h3
      have hn : (Dict.keys t).Nodup := by
        rw [forall₂_keys_eq h1 (fun p q h => h.1)]; exact h.nodup
      rcases List.mem_cons.mp hk with rfl | hk
      · obtain ⟨x, hx, -, hx1⟩ := forall₂_get? h1 (fun p q h => h.1) ha
        have hxi : ¬ x.HoldsInt := by
          cases a <;> cases x <;> simp_all [Hp.HoldsInt, Hp.SameDecl]
        have hxv : ¬ x.Accepts v := fun hh => hv ((hx1.accepts v).mpr hh)
        have hxr : (x.loadFrom v).raised = true := by
          cases x with
          | int p => exact absurd trivial hxi
          | float p => exact Hp.setValue_raises hxv (by rintro q y h'; cases h')
          | cat p => exact Hp.setValue_raises hxv (by rintro q y h'; cases h')
          | const p => exact Hp.setValue_raises hxv (by rintro q y h'; cases h')
        unfold loadOne at hu
        simp [hx, hxr] at hu
      · obtain ⟨u1, u2⟩ := loadOne_fair hn h2 hu
        refine ih u ?_ u2 hk h3
        refine List.Forall₂.imp ?_ (forall₂_trans h1 u1)
        rintro p q ⟨r, r1, r2⟩
        exact ⟨r2.1.trans r1.1, r1.2.trans r2.2⟩
  exact gen config t htp.decl (fun q hq => (hto.ok q hq).fair) hk hcc

/-- A learning rate of 50, where the demonstration space ends at 10. -/
example : demoSpace.readRun [[("act", .str "relu"), ("lr", .num 50)]] = none :=
  C163_illegal_refused _ demoSpace_inOrder _ [("act", .str "relu"), ("lr", .num 50)] (by simp) "lr"
    (.num 50) (by simp) (.float demoLr)
    (by simp [Dict.get?, demoSpace]) (by simp [Hp.HoldsInt]) (by
      rintro ⟨x, hx, -, h2⟩
      simp only [Val.num.injEq] at hx
      subst hx
      norm_num [demoLr] at h2)

/-- **C163, legal values**: whatever was stored, a promoted configuration of a continued run has the names of
the search space that the run is continued with, and the values it has are legal in it. -/
theorem C163_promoted_legal (s : SearchSpace) (h : s.InOrder) (stored : List (Dict Val))
    (cs : List SearchSpace) (hr : s.readRun stored = some cs) (c : SearchSpace) (hc : c ∈ cs) (b : Val)
    (hb : ∀ p ∈ s, p.2.isFidelity = true → p.2.Accepts b) (d : Dict (Option Val))
    (hd : c.promote b = some d) :
    d.keys = Dict.keys s ∧
      ∀ k v, (k, some v) ∈ d → ∃ a, Dict.get? s k = some a ∧ a.Accepts v := by
  obtain ⟨config, -, hcc⟩ := forall₂_mem_right (mapM_forall₂ hr) c hc
  obtain ⟨f1, f2⟩ := fromDict_fair h hcc
  obtain ⟨m, m1, m2, rfl⟩ := promote_some h f1 f2 hb hd
  constructor
  · rw [← forall₂_keys_eq m1 (fun p q h => h.1)]
    simp [hpValues, Dict.keys]
  · intro k v hkv
    simp only [hpValues, List.mem_map, Prod.mk.injEq] at hkv
    obtain ⟨⟨n, x⟩, hx, rfl, hxv⟩ := hkv
    obtain ⟨⟨n', a⟩, ha, h1, h2⟩ := forall₂_mem_right m1 _ hx
    simp only at h1 h2
    subst h1
    exact ⟨a, Dict.get?_of_mem h.nodup ha, (h2.accepts v).mpr ((m2 _ hx).value v hxv)⟩

/-- **C163, exactly**: a stored configuration with legal values for names of the search space is read, and
promoted to a legal budget it has that budget, its stored values, and for every other parameter the value
this parameter has in the search space. -/
theorem C163_legal_continues (s : SearchSpace) (h : s.InOrder) (config : Dict Val)
    (hn : config.keys.Nodup)
    (hv : ∀ kv ∈ config, ∃ a, Dict.get? s kv.1 = some a ∧ a.Accepts kv.2)
    (hf : ∃ p ∈ s, p.2.isFidelity = true) (b : Val)
    (hb : ∀ p ∈ s, p.2.isFidelity = true → p.2.Accepts b) :
    ∃ c d, s.fromDict config = some c ∧ c.promote b = some d ∧
      ∀ k a, Dict.get? s k = some a → Dict.get? d k =
        some (if a.isFidelity then some b else (Dict.get? config k).or a.value) := by
  obtain ⟨c, hc, hco, hcp⟩ := C60_from_dict s h config hn hv
  obtain ⟨m, hm, hmo, hmp⟩ := clone_ok hco
  have hd : List.Forall₂ (fun p q : String × Hp => (q.1 = p.1 ∧ p.2.SameDecl q.2) ∧
      q.2.value = (Dict.get? config p.1).or p.2.value) s m := by
    refine List.Forall₂.imp ?_ (forall₂_trans hcp hmp)
    rintro p q ⟨r, ⟨r1, r2, r3⟩, ⟨q1, q2, q3⟩⟩
    exact ⟨⟨q1.trans r1, r2.trans q2⟩, by rw [q3, r3]⟩
  have hd' : List.Forall₂ (fun p q : String × Hp => q.1 = p.1 ∧ p.2.SameDecl q.2) s m :=
    List.Forall₂.imp (fun _ _ h => h.1) hd
  obtain ⟨f, hfid⟩ : ∃ f, m.fidelity = some f := by
    obtain ⟨p, hp, hpf⟩ := hf
    obtain ⟨q, hq, h1, h2⟩ := forall₂_mem_left hd' p hp
    cases hfi : m.fidelity with
    | some f => exact ⟨f, rfl⟩
    | none =>
      have := List.find?_eq_none.mp hfi q hq
      rw [h2.isFidelity, hpf] at this
      exact absurd rfl this
  have hfm : f ∈ m := List.mem_of_find?_eq_some hfid
  have hff : f.2.isFidelity = true := by simpa using List.find?_some hfid
  obtain ⟨p, hps, hp1, hp2⟩ := forall₂_mem_right hd' f hfm
  have hacc : f.2.Accepts b := (hp2.accepts b).mp (hb p hps (by rw [← hp2.isFidelity]; exact hff))
  obtain ⟨s1, s2, -, -⟩ := Hp.setValue_ok (hmo.ok f hfm) hacc
  refine ⟨c, hpValues (Dict.set m f.1 (f.2.setValue b).st), hc, ?_, ?_⟩
  · unfold promote
    simp [hm, hfid, s1]
  · intro k a ha
    rw [hpValues_get?]
    obtain ⟨x, hx, ⟨-, hx1⟩, hx2⟩ := forall₂_get? hd (fun p q h => h.1.1) ha
    have hset := Dict.set_forall₂ m f.1 (f.2.setValue b).st
      (List.mem_map_of_mem (f := Prod.fst) hfm)
    obtain ⟨y, hy, -, hy1, hy2⟩ := forall₂_get? hset (fun p q h => h.1) hx
    rw [hy, Option.map_some]
    have hfg := Dict.get?_of_mem hmo.nodup (show (f.1, f.2) ∈ m from hfm)
    simp only at hy1 hy2 hx1 hx2
    by_cases hk : k = f.1
    · have : x = f.2 := by
        rw [hk, hfg] at hx
        simpa using hx.symm
      rw [hy1 hk, s2]
      have haf : a.isFidelity = true := by rw [← hx1.isFidelity, this]; exact hff
      simp [haf]
    · have haf : a.isFidelity = false := by
        by_contra hne
        simp only [Bool.not_eq_false] at hne
        apply hk
        have hone := hmo.one
        have e1 : (k, x) ∈ m.filter fun p => p.2.isFidelity :=
          List.mem_filter.mpr ⟨Dict.mem_of_get? hx, by rw [hx1.isFidelity]; exact hne⟩
        have e2 : f ∈ m.filter fun p => p.2.isFidelity := List.mem_filter.mpr ⟨hfm, hff⟩
        obtain ⟨z, hz⟩ : ∃ z, (m.filter fun p => p.2.isFidelity) = [z] := by
          match hl : (m.filter fun p => p.2.isFidelity) with
          | [] => rw [hl] at e1; simp at e1
          | [z] => exact ⟨z, hl⟩
          | _ :: _ :: _ => rw [hl] at hone; simp at hone
        rw [hz] at e1 e2
        simp only [List.mem_singleton] at e1 e2
        rw [e2, ← e1]
      rw [hy2 hk, hx2]
      simp [haf]

/-- **C163 (partial)**: if the stored configurations name every parameter of the new search space with legal
values, the run can be continued and promoted configurations are complete.

Missing: a search space with a new parameter (`C163_new_parameter_fails`). -/
theorem C163_complete_partial (s : SearchSpace) (h : s.InOrder) (config : Dict Val)
    (hn : config.keys.Nodup)
    (hv : ∀ kv ∈ config, ∃ a, Dict.get? s kv.1 = some a ∧ a.Accepts kv.2)
    (hall : ∀ k ∈ Dict.keys s, k ∈ config.keys) (hf : ∃ p ∈ s, p.2.isFidelity = true) (b : Val)
    (hb : ∀ p ∈ s, p.2.isFidelity = true → p.2.Accepts b) :
    ∃ c d, s.fromDict config = some c ∧ c.promote b = some d ∧
      ∀ k a, Dict.get? s k = some a → ∃ v, Dict.get? d k = some (some v) ∧ a.Accepts v ∧
        (a.isFidelity = false → Dict.get? config k = some v) := by
  obtain ⟨c, d, h1, h2, h3⟩ := C163_legal_continues s h config hn hv hf b hb
  refine ⟨c, d, h1, h2, ?_⟩
  intro k a ha
  have hk := hall k (Dict.get?_mem_keys ha)
  obtain ⟨⟨k', v⟩, hkv, rfl⟩ := List.mem_map.mp hk
  have hg := Dict.get?_of_mem hn hkv
  simp only at ha ⊢
  cases haf : a.isFidelity with
  | true =>
    refine ⟨b, by rw [h3 _ _ ha, haf]; rfl, hb _ (Dict.mem_of_get? ha) haf, by simp⟩
  | false =>
    obtain ⟨a', ha', hav⟩ := hv _ hkv
    rw [ha] at ha'
    simp only [Option.some.injEq] at ha'
    subst ha'
    exact ⟨v, by rw [h3 _ _ ha, haf, hg]; rfl, hav, fun _ => hg⟩

/-- **C163 fails** for a search space with a parameter the stored configurations do not have: the run is
continued without complaint, and every promoted configuration has `None` for the new parameter. -/
theorem C163_new_parameter_fails (s : SearchSpace) (h : s.InOrder) (config : Dict Val)
    (hn : config.keys.Nodup)
    (hv : ∀ kv ∈ config, ∃ a, Dict.get? s kv.1 = some a ∧ a.Accepts kv.2)
    (hf : ∃ p ∈ s, p.2.isFidelity = true) (b : Val)
    (hb : ∀ p ∈ s, p.2.isFidelity = true → p.2.Accepts b)
    (k : String) (a : Hp) (ha : Dict.get? s k = some a) (haf : a.isFidelity = false)
    (hav : a.value = none) (hk : k ∉ config.keys) :
    ∃ c d, s.fromDict config = some c ∧ c.promote b = some d ∧ Dict.get? d k = some none := by
  obtain ⟨c, d, h1, h2, h3⟩ := C163_legal_continues s h config hn hv hf b hb
  refine ⟨c, d, h1, h2, ?_⟩
  rw [h3 k a ha, haf, Dict.get?_none hk, hav]
  rfl

theorem demo_budget : ∀ p ∈ demoSpace, p.2.isFidelity = true → p.2.Accepts (.num ((9 : ℤ) : ℝ)) := by
  simp only [demoSpace, List.mem_cons, List.not_mem_nil, or_false]
  rintro p (rfl | rfl | rfl) hp
  · simp [Hp.isFidelity] at hp
  · exact ⟨9, rfl, by norm_num [demoEpochs], by norm_num [demoEpochs]⟩
  · simp [Hp.isFidelity, demoLr] at hp

/-- The configurations of a run without a learning rate, continued with one. -/
theorem demo_missing :
    ∃ c d, demoSpace.fromDict [("act", .str "gelu"), ("epochs", .num ((3 : ℤ) : ℝ))] = some c ∧
    c.promote (.num ((9 : ℤ) : ℝ)) = some d ∧ Dict.get? d "lr" = some none :=
  C163_new_parameter_fails _ demoSpace_inOrder _ (by simp [Dict.keys]) (by
    simp only [List.mem_cons, List.not_mem_nil, or_false]
    rintro kv (rfl | rfl)
    · exact ⟨.cat demoAct, by simp [Dict.get?, demoSpace], by simp [Hp.Accepts, demoAct]⟩
    · exact ⟨.int demoEpochs, by simp [Dict.get?, demoSpace], 3, rfl, by norm_num [demoEpochs],
        by norm_num [demoEpochs]⟩)
    ⟨("epochs", .int demoEpochs), by simp [demoSpace], rfl⟩ _ demo_budget
    "lr" (.float demoLr) (by simp [Dict.get?, demoSpace]) (by simp [Hp.isFidelity, demoLr])
    (by simp [Hp.value, demoLr]) (by simp [Dict.keys])

/-- A complete configuration, and what promotion makes of it: the hypotheses of `C163_promoted_legal`,
`C163_legal_continues` and `C163_complete_partial` are met. -/
example : ∃ c d, demoSpace.fromDict [("act", .str "gelu"), ("epochs", .num ((3 : ℤ) : ℝ)), ("lr", .num 5)]
      = some c ∧ c.promote (.num ((9 : ℤ) : ℝ)) = some d ∧
    Dict.get? d "lr" = some (some (.num 5)) ∧ Dict.get? d "epochs" = some (some (.num ((9 : ℤ) : ℝ))) ∧
    d.keys = Dict.keys demoSpace := by
  obtain ⟨c, d, h1, h2, h3⟩ := C163_legal_continues _ demoSpace_inOrder
    [("act", .str "gelu"), ("epochs", .num ((3 : ℤ) : ℝ)), ("lr", .num 5)] (by simp [Dict.keys]) (by
    simp only [List.mem_cons, List.not_mem_nil, or_false]
    rintro kv (rfl | rfl | rfl)
    · exact ⟨.cat demoAct, by simp [Dict.get?, demoSpace], by simp [Hp.Accepts, demoAct]⟩
    · exact ⟨.int demoEpochs, by simp [Dict.get?, demoSpace], 3, rfl, by norm_num [demoEpochs],
        by norm_num [demoEpochs]⟩
    · exact ⟨.float demoLr, by simp [Dict.get?, demoSpace], 5, rfl, by norm_num [demoLr],
        by norm_num [demoLr]⟩)
    ⟨("epochs", .int demoEpochs), by simp [demoSpace], rfl⟩ _ demo_budget
  refine ⟨c, d, h1, h2, ?_, ?_, ?_⟩
  · rw [h3 "lr" (.float demoLr) (by simp [Dict.get?, demoSpace])]
    simp [Hp.isFidelity, demoLr, Dict.get?]
  · rw [h3 "epochs" (.int demoEpochs) (by simp [Dict.get?, demoSpace])]
    simp [Hp.isFidelity, demoEpochs]
  · exact (C163_promoted_legal _ demoSpace_inOrder
      [[("act", .str "gelu"), ("epochs", .num ((3 : ℤ) : ℝ)), ("lr", .num 5)]] [c]
      (by unfold readRun; rw [List.mapM_cons, h1]; rfl) c (by simp) _ demo_budget d h2).1

end SearchSpace

end Verif.Space
