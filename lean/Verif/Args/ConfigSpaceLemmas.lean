import Verif.Args.ConfigSpaceSpec

/-!
# Lemmas on spaces given as `ConfigSpace` objects
-/

namespace Verif.Args

open Verif.Space

theorem csConvert_ok {k : CSKind} (hl : k.Legal) (hk : k.Known) (hv : k.Varied) :
    ∃ h, k.convert = some h ∧ h.Ok ∧ h.isFidelity = false ∧ h.dflt = k.dflt ∧ h.isLog = k.isLog ∧
      (h.hasPrior = true ↔ ¬ k.IsConst) ∧ (∀ v, k.Allows v → h.Accepts v) ∧
      (k.Smooth → ∀ v, h.Accepts v → k.Allows v) := by
  have hcat : ∀ (c : List Val) (d : Val), c.Nodup → d ∈ c → 2 ≤ c.length →
      ∃ p, CatParam.make c (some d) 2 = some p ∧ (Hp.cat p).Ok ∧ p.choices = c ∧
        p.dflt = some d ∧ p.hasPrior = true := by
    intro c d hn hd h2
    have hm : CatParam.make c (some d) 2 =
        some ⟨c, some d, CatParam.index c d, true, 2, 2, none, none⟩ := by
      unfold CatParam.make
      rw [if_neg (by omega), if_neg (by simpa using hn)]
      simp [hd]
    refine ⟨_, hm, ⟨CatParam.Used.make hm, by simp [Hp.value], ?_⟩, rfl, rfl, rfl⟩
    intro v hv
    simp only [Hp.dflt, Option.some.injEq] at hv
    subst hv
    exact hd
  cases k with
  | const v =>
    exact ⟨_, rfl, ⟨rfl, by simp [Hp.value, Hp.Accepts], by simp [Hp.dflt, Hp.Accepts]⟩, rfl, rfl,
      rfl, by simp [Hp.hasPrior, CSKind.IsConst], fun w h => h, fun _ w h => h⟩
  | cat c d =>
    obtain ⟨p, h1, h2, h3, h4, h5⟩ := hcat c d hl.1 hl.2 hv
    refine ⟨.cat p, by simp [CSKind.convert, h1], h2, rfl, by simp [Hp.dflt, CSKind.dflt, h4], rfl,
      by simp [Hp.hasPrior, CSKind.IsConst, h5], ?_, ?_⟩
    · intro v h; simpa [Hp.Accepts, CSKind.Allows, h3] using h
    · intro _ v h; simpa [Hp.Accepts, CSKind.Allows, h3] using h
  | ord c d =>
    obtain ⟨p, h1, h2, h3, h4, h5⟩ := hcat c d hl.1 hl.2 hv
    refine ⟨.cat p, by simp [CSKind.convert, h1], h2, rfl, by simp [Hp.dflt, CSKind.dflt, h4], rfl,
      by simp [Hp.hasPrior, CSKind.IsConst, h5], ?_, ?_⟩
    · intro v h; simpa [Hp.Accepts, CSKind.Allows, h3] using h
    · intro _ v h; simpa [Hp.Accepts, CSKind.Allows, h3] using h
  | int l u log q d =>
    obtain ⟨a, b, c, e⟩ := hl
    obtain ⟨f, _, hi⟩ := IntParam.make_some (l := l) (u := u) (log := log) (fid := false)
      (d := some d) (s := 1 / 2) a b (by simpa using ⟨c, e⟩)
    refine ⟨_, by simp only [CSKind.convert]; rw [Option.map_some] at hi; rw [hi]; rfl,
      ⟨IntParam.Used.make hi, by simp [Hp.value], ?_⟩, rfl, by simp [Hp.dflt, CSKind.dflt], rfl,
      by simp [Hp.hasPrior, CSKind.IsConst], ?_, ?_⟩
    · intro v h
      simp only [Hp.dflt, Option.map_some, Option.some.injEq] at h
      subst h
      exact ⟨d, rfl, c, e⟩
    · rintro v ⟨n, h1, h2, h3, _⟩
      exact ⟨n, h1, h2, h3⟩
    · rintro hs v ⟨n, h1, h2, h3⟩
      simp only [CSKind.Smooth] at hs
      exact ⟨n, h1, h2, h3, by simp [hs]⟩
  | float l u log q d =>
    obtain ⟨a, b, c, e⟩ := hl
    have hf := FloatParam.make_some (l := l) (u := u) (log := log) (fid := false) (d := some d)
      (s := 1 / 2) a b (by simpa using ⟨c, e⟩)
    refine ⟨_, by simp only [CSKind.convert]; rw [hf]; rfl,
      ⟨FloatParam.Used.make hf, by simp [Hp.value], ?_⟩, rfl, by simp [Hp.dflt, CSKind.dflt], rfl,
      by simp [Hp.hasPrior, CSKind.IsConst], ?_, ?_⟩
    · intro v h
      simp only [Hp.dflt, Option.map_some, Option.some.injEq] at h
      subst h
      exact ⟨d, rfl, c, e⟩
    · rintro v ⟨n, h1, h2, h3, _⟩
      exact ⟨n, h1, h2, h3⟩
    · rintro hs v ⟨n, h1, h2, h3⟩
      simp only [CSKind.Smooth] at hs
      exact ⟨n, h1, h2, h3, by simp [hs]⟩
  | other => exact absurd hk (by simp [CSKind.Known])

theorem set_new {β : Type*} {d : Dict β} {k : String} (v : β) (h : k ∉ d.keys) :
    d.set k v = d ++ [(k, v)] := by
  unfold Dict.set
  rw [if_neg h]

theorem keys_append {β : Type*} (d e : Dict β) : Dict.keys (d ++ e) = d.keys ++ e.keys := by
  simp [Dict.keys]

theorem update_new {β : Type*} (e : Dict β) : ∀ {d : Dict β}, (d.keys ++ e.keys).Nodup →
    d.update e = d ++ e := by
  induction e with
  | nil => intro d _; simp [Dict.update]
  | cons p e ih =>
    intro d hn
    have hp : p.1 ∉ d.keys := by
      rw [List.nodup_append] at hn
      intro h
      exact hn.2.2 p.1 h p.1 (by simp [Dict.keys]) rfl
    unfold Dict.update at ih ⊢
    rw [List.foldl_cons, set_new _ hp, ih (by simpa [Dict.keys] using hn)]
    simp

/-- The parameters are converted one by one. -/
theorem converted (l : Dict CSKind) : ∀ {acc : Dict Hp}, (acc.keys ++ l.keys).Nodup →
    (∀ p ∈ l, ∃ h, p.2.convert = some h) →
    ∃ m : Dict Hp, l.foldlM (fun (d : Dict Hp) p => p.2.convert.map fun h => d.set p.1 h) acc =
        some (acc ++ m) ∧
      List.Forall₂ (fun p q => q.1 = p.1 ∧ p.2.convert = some q.2) l m := by
  induction l with
  | nil => intro acc _ _; exact ⟨[], by simp, .nil⟩
  | cons p l ih =>
    intro acc hn hc
    obtain ⟨h, hh⟩ := hc p (by simp)
    have hp : p.1 ∉ acc.keys := by
      rw [List.nodup_append] at hn
      intro h
      exact hn.2.2 p.1 h p.1 (by simp [Dict.keys]) rfl
    obtain ⟨m, h1, h2⟩ := ih (acc := acc ++ [(p.1, h)]) (by simpa [Dict.keys] using hn)
      (fun q hq => hc q (by simp [hq]))
    refine ⟨(p.1, h) :: m, ?_, .cons ⟨rfl, hh⟩ h2⟩
    rw [List.foldlM_cons, hh]
    simp only [Option.map_some, set_new _ hp, Option.bind_eq_bind, Option.bind_some]
    rw [h1]
    simp

/-- A hyperparameter that cannot be converted makes the whole conversion raise. -/
theorem unconverted (l : Dict CSKind) : ∀ {acc : Dict Hp}, (∃ p ∈ l, p.2.convert = none) →
    l.foldlM (fun (d : Dict Hp) p => p.2.convert.map fun h => d.set p.1 h) acc = none := by
  induction l with
  | nil => intro acc h; simp at h
  | cons p l ih =>
    intro acc h
    rw [List.foldlM_cons]
    cases hp : p.2.convert with
    | none => simp
    | some x =>
      simp only [Option.map_some, Option.bind_eq_bind, Option.bind_some]
      obtain ⟨q, hq, hn⟩ := h
      rcases List.mem_cons.mp hq with rfl | hq
      · rw [hp] at hn; cases hn
      · exact ih ⟨q, hq, hn⟩

/-- The parameter a declaration becomes. -/
def Decl.Becomes : Decl → Hp → Prop
  | .own h, x => x = h
  | .other k, x => k.convert = some x

theorem forall₂_keys {α β : Type*} {R : String × α → String × β → Prop} {l : Dict α} {m : Dict β}
    (h : List.Forall₂ R l m) (hk : ∀ p q, R p q → q.1 = p.1) : m.keys = l.keys := by
  induction h with
  | nil => rfl
  | cons hab _ ih => simp only [Dict.keys, List.map_cons] at ih ⊢; rw [hk _ _ hab, ih]

theorem fromConfigspace_ok {c : ConfigSpace} (hc : c.conditions = 0) (hf : c.forbiddens = 0)
    (hn : c.hps.keys.Nodup) (hk : ∀ p ∈ c.hps, ∃ h, p.2.convert = some h) :
    ∃ m : Dict Hp, fromConfigspace c = some m ∧
      List.Forall₂ (fun p q => q.1 = p.1 ∧ p.2.convert = some q.2) c.hps m := by
  obtain ⟨m, h1, h2⟩ := converted c.hps (acc := []) (by simpa [Dict.keys] using hn) hk
  refine ⟨m, ?_, h2⟩
  unfold fromConfigspace
  rw [if_neg (by omega), h1]
  simp

theorem forall₂_map_left {α β γ : Type*} {R : γ → β → Prop} {f : α → γ} {l : List α} {m : List β}
    (h : List.Forall₂ (fun a b => R (f a) b) l m) : List.Forall₂ R (l.map f) m := by
  induction h with
  | nil => exact .nil
  | cons hab _ ih => exact .cons hab ih

/-- The loop collects what is declared, if all the names are distinct. -/
theorem collected (d : Dict Entry) : ∀ {acc : Dict Hp},
    (acc.keys ++ (d.flatMap declaredBy).map (·.1)).Nodup →
    (∀ p ∈ d, ∀ c, p.2 = .space c → c.conditions = 0 ∧ c.forbiddens = 0) →
    (∀ p ∈ d.flatMap declaredBy, ∃ h, p.2.Becomes h) →
    ∃ m : Dict Hp, d.foldlM addEntry acc = some (acc ++ m) ∧
      List.Forall₂ (fun p q => q.1 = p.1 ∧ p.2.Becomes q.2) (d.flatMap declaredBy) m := by
  induction d with
  | nil => intro acc _ _ _; exact ⟨[], by simp, .nil⟩
  | cons p d ih =>
    intro acc hn hc hb
    rw [List.flatMap_cons] at hn hb ⊢
    have one : ∃ e : Dict Hp, addEntry acc p = some (acc ++ e) ∧
        List.Forall₂ (fun p q => q.1 = p.1 ∧ p.2.Becomes q.2) (declaredBy p) e := by
      obtain ⟨k, x⟩ := p
      cases x with
      | own h =>
        have hp : k ∉ acc.keys := by
          rw [List.nodup_append] at hn
          intro h
          exact hn.2.2 k h k (by simp [declaredBy]) rfl
        exact ⟨[(k, h)], by simp [addEntry, set_new _ hp], .cons ⟨rfl, rfl⟩ .nil⟩
      | space c =>
        obtain ⟨h1, h2⟩ := hc (k, .space c) (by simp) c rfl
        have hkeys : (c.hps.map fun q : String × CSKind => (q.1, Decl.other q.2)).map (·.1) =
            c.hps.keys := by simp [Dict.keys]
        have hn' : (acc.keys ++ c.hps.keys).Nodup := by
          rw [← hkeys]
          rw [List.map_append, ← List.append_assoc, List.nodup_append] at hn
          exact hn.1
        obtain ⟨m, e1, e2⟩ := fromConfigspace_ok h1 h2 (List.nodup_append.mp hn').2.1
          (fun q hq => hb (q.1, .other q.2) (by
            rw [List.mem_append]; left
            exact List.mem_map.mpr ⟨q, hq, rfl⟩))
        have hm : m.keys = c.hps.keys := forall₂_keys e2 (fun _ _ h => h.1)
        refine ⟨m, ?_, forall₂_map_left e2⟩
        simp only [addEntry, e1, Option.map_some]
        rw [update_new m (by rw [hm]; exact hn')]
    obtain ⟨e, h1, h2⟩ := one
    have he : e.keys = (declaredBy p).map (·.1) := forall₂_keys h2 (fun _ _ h => h.1)
    obtain ⟨m, h3, h4⟩ := ih (acc := acc ++ e) (by
        rw [keys_append, he, List.append_assoc, ← List.map_append]; exact hn)
      (fun q hq => hc q (by simp [hq])) (fun q hq => hb q (by rw [List.mem_append]; right; exact hq))
    refine ⟨e ++ m, ?_, List.rel_append h2 h4⟩
    rw [List.foldlM_cons, h1]
    simp only [Option.bind_eq_bind, Option.bind_some]
    rw [h3, List.append_assoc]

/-- A space that is not supported makes the loop raise. -/
theorem uncollected (d : Dict Entry) : ∀ {acc : Dict Hp},
    (∃ p ∈ d, ∃ c, p.2 = .space c ∧ fromConfigspace c = none) → d.foldlM addEntry acc = none := by
  induction d with
  | nil => intro acc h; simp at h
  | cons p d ih =>
    intro acc h
    rw [List.foldlM_cons]
    cases hp : addEntry acc p with
    | none => simp
    | some x =>
      simp only [Option.bind_eq_bind, Option.bind_some]
      obtain ⟨q, hq, c, hc, hn⟩ := h
      rcases List.mem_cons.mp hq with rfl | hq
      · simp [addEntry, hc, hn] at hp
      · exact ih ⟨q, hq, c, hc, hn⟩

/-- Own parameters only. -/
theorem collected_own (m : Dict Hp) (hn : m.keys.Nodup) :
    (m.map fun p => (p.1, Entry.own p.2)).foldlM addEntry [] = some m := by
  have hfm : (m.map fun p => (p.1, Entry.own p.2)).flatMap declaredBy =
      m.map fun p => (p.1, Decl.own p.2) := by
    clear hn
    induction m with
    | nil => rfl
    | cons p m ih => rw [List.map_cons, List.flatMap_cons, ih]; rfl
  obtain ⟨e, h1, h2⟩ := collected (m.map fun p => (p.1, Entry.own p.2)) (acc := []) (by
      rw [hfm]; simpa [Dict.keys, Function.comp_def] using hn) (by
      intro p hp c hc
      obtain ⟨q, _, rfl⟩ := List.mem_map.mp hp
      cases hc) (by
      rw [hfm]
      simp only [List.mem_map]
      rintro _ ⟨p, _, rfl⟩
      exact ⟨p.2, rfl⟩)
  rw [h1, List.nil_append]
  rw [hfm] at h2
  congr 1
  clear h1 hfm hn
  induction m generalizing e with
  | nil => cases h2; rfl
  | cons p m ih =>
    cases h2 with
    | cons hab h2 =>
      rw [ih _ h2]
      congr 1
      exact Prod.ext hab.1 hab.2

/-- What is collected, for either form of the argument. -/
theorem collected_in (s : SpaceIn) (hn : (s.declared.map (·.1)).Nodup)
    (hc : ∀ c ∈ s.spaces, c.conditions = 0 ∧ c.forbiddens = 0)
    (hb : ∀ p ∈ s.declared, ∃ h, p.2.Becomes h) :
    ∃ m : Dict Hp, runSpace s = SearchSpace.make m ∧
      List.Forall₂ (fun p q => q.1 = p.1 ∧ p.2.Becomes q.2) s.declared m := by
  cases s with
  | space c =>
    simp only [SpaceIn.declared] at hn hb ⊢
    have hkeys : (c.hps.map fun q : String × CSKind => (q.1, Decl.other q.2)).map (·.1) =
        c.hps.keys := by simp [Dict.keys]
    rw [hkeys] at hn
    obtain ⟨h1, h2⟩ := hc c (by simp [SpaceIn.spaces])
    obtain ⟨m, e1, e2⟩ := fromConfigspace_ok h1 h2 hn
      (fun q hq => hb (q.1, .other q.2) (List.mem_map.mpr ⟨q, hq, rfl⟩))
    have hm : m.keys = c.hps.keys := forall₂_keys e2 (fun _ _ h => h.1)
    refine ⟨m, ?_, forall₂_map_left e2⟩
    simp only [runSpace, e1, Option.bind_eq_bind, Option.bind_some]
    rw [collected_own m (by rw [hm]; exact hn)]
    rfl
  | dict d =>
    obtain ⟨m, e1, e2⟩ := collected d (acc := []) (by simpa [Dict.keys, SpaceIn.declared] using hn) (by
      intro p hp c hpc
      refine hc c ?_
      simp only [SpaceIn.spaces, List.mem_filterMap]
      exact ⟨p, hp, by simp [hpc]⟩) hb
    refine ⟨m, ?_, e2⟩
    simp only [runSpace, e1, List.nil_append, Option.bind_eq_bind, Option.bind_some]

end Verif.Args
