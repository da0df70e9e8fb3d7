import Verif.Args.ConstructLemmas
import Verif.Args.ConstructSpec

/-!
# Lemmas about the space and the brackets of an optimizer
-/

namespace Verif.Args

open Verif.Space (Dict)
open Verif.Space

/-! ## `_enhance_priors` -/

theorem Hp.enhance_again {t : String} {a b : Hp} (h : a.enhance t = some b) :
    b.enhance t = some b := by
  unfold Hp.enhance at h ⊢
  by_cases hf : a.isFidelity = true
  · rw [if_pos hf, Option.some.injEq] at h
    subst h
    rw [if_pos hf]
  · rw [if_neg hf] at h
    split_ifs with hb
    · rfl
    · cases a with
      | float p =>
        simp only [Option.map_eq_some_iff] at h
        obtain ⟨s, hs, rfl⟩ := h
        simp [hs]
      | int p =>
        simp only [Option.map_eq_some_iff] at h
        obtain ⟨s, hs, rfl⟩ := h
        simp [hs]
      | cat p =>
        simp only [Option.map_eq_some_iff] at h
        obtain ⟨s, hs, rfl⟩ := h
        simp [hs]
      | const p =>
        simp only [Option.some.injEq] at h
        subst h
        rfl

theorem Hp.enhance_fid {t : String} {a b : Hp} (h : a.enhance t = some b) :
    b.isFidelity = a.isFidelity ∧ (a.isFidelity = true → b = a) := by
  unfold Hp.enhance at h
  by_cases hf : a.isFidelity = true
  · rw [if_pos hf, Option.some.injEq] at h
    subst h
    exact ⟨rfl, fun _ => rfl⟩
  · rw [if_neg hf] at h
    refine ⟨?_, fun h' => absurd h' hf⟩
    cases a with
    | float p =>
      simp only [Option.map_eq_some_iff] at h
      obtain ⟨s, hs, rfl⟩ := h
      rfl
    | int p =>
      simp only [Option.map_eq_some_iff] at h
      obtain ⟨s, hs, rfl⟩ := h
      rfl
    | cat p =>
      simp only [Option.map_eq_some_iff] at h
      obtain ⟨s, hs, rfl⟩ := h
      rfl
    | const p =>
      simp only [Option.some.injEq] at h
      subst h
      rfl

theorem mapM_again {s s' : SearchSpace} {t : String}
    (h : s.mapM (fun p => (p.2.enhance t).map fun q => (p.1, q)) = some s') :
    s'.mapM (fun p => (p.2.enhance t).map fun q => (p.1, q)) = some s' ∧ s'.fidelity = s.fidelity := by
  induction s generalizing s' with
  | nil =>
    simp only [List.mapM_nil, Option.pure_def, Option.some.injEq] at h
    subst h
    exact ⟨rfl, rfl⟩
  | cons p s ih =>
    rw [List.mapM_cons] at h
    cases hp : p.2.enhance t with
    | none => simp [hp] at h
    | some q =>
      cases hs : s.mapM (fun p => (p.2.enhance t).map fun q => (p.1, q)) with
      | none => simp [hp, hs] at h
      | some s'' =>
        simp only [hp, hs, Option.map_some, Option.bind_eq_bind, Option.bind_some, Option.pure_def,
          Option.some.injEq] at h
        subst h
        obtain ⟨h1, h2⟩ := ih hs
        obtain ⟨h3, h4⟩ := Hp.enhance_fid hp
        constructor
        · rw [List.mapM_cons]
          simp only [Hp.enhance_again hp, h1, Option.map_some, Option.bind_eq_bind,
            Option.bind_some, Option.pure_def]
        · unfold SearchSpace.fidelity at h2 ⊢
          rw [List.find?_cons, List.find?_cons]
          simp only [h3, h2]
          cases hpf : p.2.isFidelity with
          | false => rfl
          | true => simp only [h4 hpf]

theorem enhance_again {s s' : SearchSpace} {u : Bool} {c : Option String}
    (h : s.enhance u c = some s') : s'.enhance u c = some s' ∧ s'.fidelity = s.fidelity := by
  unfold SearchSpace.enhance at h ⊢
  cases u with
  | false =>
    simp only [Bool.false_eq_true, if_false, Option.some.injEq] at h
    subst h
    exact ⟨rfl, rfl⟩
  | true =>
    simp only [if_true] at h ⊢
    cases c with
    | none =>
      simp only [Option.some.injEq] at h
      subst h
      exact ⟨rfl, rfl⟩
    | some t => exact mapM_again h

theorem limitOf_enhance {ctx : Ctx} {s s' : SearchSpace} {u : Bool} {c : Option String}
    (h : s.enhance u c = some s') (eta : Py) : ctx.limitOf s' eta = ctx.limitOf s eta := by
  unfold Ctx.limitOf
  rw [(enhance_again h).2]

/-! ## Successive halving -/

/-- The names of the settings whose values are checked. -/
def checkedSettings : List String :=
  ["random_interleave_prob", "sampling_policy", "promotion_policy", "eta", "early_stopping_rate",
   "use_priors", "prior_confidence"]

theorem HalvingOk.congr {ctx : Ctx} {s : SearchSpace} {v v' : String → Py}
    (h : HalvingOk ctx s v) (he : ∀ p ∈ checkedSettings, v' p = v p) : HalvingOk ctx s v' := by
  have e1 := he "random_interleave_prob" (by decide)
  have e2 := he "sampling_policy" (by decide)
  have e3 := he "promotion_policy" (by decide)
  have e4 := he "eta" (by decide)
  have e5 := he "early_stopping_rate" (by decide)
  have e6 := he "use_priors" (by decide)
  have e7 := he "prior_confidence" (by decide)
  obtain ⟨h1, h2, h3, h4, h5⟩ := h
  exact ⟨by rw [e1]; exact h1, by rw [e2]; exact h2, by rw [e3]; exact h3, by rw [e4, e5]; exact h4,
    by rw [e6, e7]; exact h5⟩

theorem shBody_ok {ctx : Ctx} {s : SearchSpace} {v : String → Py} {s' : SearchSpace} :
    shBaseLevel.body ctx s v = .ok s' ↔ HalvingOk ctx s v ∧
      s.enhance (v "use_priors").truthy (v "prior_confidence").confidence = some s' := by
  simp only [shBaseLevel]
  constructor
  · intro h
    split at h
    · cases h
    · rename_i p hp
      split_ifs at h with h1 h2 h3 h4
      split at h
      · rename_i limit r hl hr
        split_ifs at h with h5
        split at h
        · rename_i s'' hs
          simp only [Except.ok.injEq] at h
          subst h
          simp only [not_or, not_lt] at h1
          exact ⟨⟨⟨p, hp, h1.1, h1.2⟩, by simpa using h3, by simpa using h4,
            ⟨limit, r, hl, hr, h5⟩, ⟨_, hs⟩⟩, hs⟩
        · cases h
      · cases h
  · rintro ⟨⟨⟨q, hq, h1, h2⟩, h3, h4, ⟨limit, r, hl, hr, h5⟩, _⟩, hs⟩
    simp only [hq]
    rw [if_neg (by simp [h1, h2]), if_neg, if_neg (by simp [h3]), if_neg (by simp [h4])]
    · simp only [hl, hr, if_pos h5, hs]
    · intro hf
      rw [Option.isNone_iff_eq_none] at hf
      simp [Ctx.limitOf, hf] at hl

theorem baseBody_ok {ctx : Ctx} {s : SearchSpace} {v : String → Py} {q : ℚ}
    (h : (v "patience").asNumber = some q) (h1 : 1 ≤ q) : baseLevel.body ctx s v = .ok s := by
  simp only [baseLevel, h]
  rw [if_neg (by simpa using h1)]

theorem base_plain {ctx : Ctx} {s : SearchSpace} {kw : Dict Py} (hf : baseLevel.sig.fits kw = true)
    (hp : kw.get? "patience" = none) : ∃ d, plain ctx [baseLevel] s kw = .ok (s, d) := by
  simp only [plain, if_pos hf]
  have : baseLevel.sig.value kw "patience" = .int 50 := by
    unfold Sig.value
    rw [hp]
    rfl
  rw [baseBody_ok (q := 50) (by rw [this]; rfl) (by norm_num)]
  exact ⟨_, rfl⟩

theorem base_space {ctx : Ctx} {s : SearchSpace} {kw : Dict Py} {r : SearchSpace × Dict Py}
    (h : plain ctx [baseLevel] s kw = .ok r) : r.1 = s := by
  simp only [plain] at h
  split_ifs at h with hf
  cases hb : baseLevel.body ctx s (baseLevel.sig.value kw) with
  | error e => simp [hb] at h
  | ok s' =>
    simp only [hb, Except.ok.injEq] at h
    subst h
    simp only [baseLevel] at hb
    split at hb
    · cases hb
    · split_ifs at hb
      simp only [Except.ok.injEq] at hb
      exact hb.symm

theorem shChain_plain {ctx : Ctx} {s : SearchSpace} {kw : Dict Py} {s' : SearchSpace} :
    (∃ d, plain ctx shChain s kw = .ok (s', d)) ↔
      shBaseLevel.sig.fits kw = true ∧ HalvingOk ctx s (shBaseLevel.sig.value kw) ∧
      s.enhance (shBaseLevel.sig.value kw "use_priors").truthy
        (shBaseLevel.sig.value kw "prior_confidence").confidence = some s' := by
  have hbf : ∀ kw', baseLevel.sig.fits (evalAll shBaseLevel.sig kw' shBaseLevel.pass) = true := by
    intro kw'
    unfold Sig.fits
    rw [evalAll_keys]
    decide +kernel
  constructor
  · rintro ⟨d, h⟩
    rw [shChain] at h
    simp only [plain] at h
    split_ifs at h with hf hf'
    · cases hb : baseLevel.body ctx s
        (baseLevel.sig.value (evalAll shBaseLevel.sig kw shBaseLevel.pass)) with
      | error e => simp [hb] at h
      | ok s1 =>
        have hs1 : s1 = s := by
          have := base_space (ctx := ctx) (s := s)
            (kw := evalAll shBaseLevel.sig kw shBaseLevel.pass)
            (r := (s1, Dict.update [] (evalAll baseLevel.sig
              (evalAll shBaseLevel.sig kw shBaseLevel.pass) baseLevel.attrs)))
            (by simp only [plain, if_pos hf', hb])
          exact this
        subst hs1
        simp only [hb] at h
        cases hb2 : shBaseLevel.body ctx s1 (shBaseLevel.sig.value kw) with
        | error e => simp [hb2] at h
        | ok s2 =>
          simp only [hb2, Except.ok.injEq, Prod.mk.injEq] at h
          obtain ⟨rfl, _⟩ := h
          exact ⟨hf, shBody_ok.mp hb2⟩
  · rintro ⟨hf, hok, hs⟩
    obtain ⟨d, hd⟩ := base_plain (ctx := ctx) (s := s) (hbf kw)
      (by rw [evalAll_get?]; rfl)
    refine ⟨d.update (evalAll shBaseLevel.sig kw shBaseLevel.attrs), ?_⟩
    unfold shChain
    unfold plain
    rw [if_pos hf, hd]
    simp only
    rw [shBody_ok.mpr ⟨hok, hs⟩]

end Verif.Args
