import Verif.Args.ConstructSpace

/-!
# Lemmas about which calls succeed
-/

namespace Verif.Args

open Verif.Space (Dict)
open Verif.Space

/-- A class without brackets. -/
theorem construct_plain {ctx : Ctx} {c : Chain} (hc : ∀ l ∈ c, l.brackets = none) (s : SearchSpace)
    (kw : Dict Py) :
    construct ctx c s kw = (plain ctx c s kw).map fun r => (⟨r.1, r.2, []⟩ : Made) := by
  induction c generalizing s kw with
  | nil => rfl
  | cons l ls ih =>
    have h1 := hc l (by simp)
    have h2 := ih (fun l hl => hc l (by simp [hl])) s (evalAll l.sig kw l.pass)
    simp only [construct, plain]
    split_ifs with hf
    · rw [h2]
      cases plain ctx ls s (evalAll l.sig kw l.pass) with
      | error e => rfl
      | ok r =>
        obtain ⟨s', d⟩ := r
        simp only [Except.map]
        cases l.body ctx s' (l.sig.value kw) with
        | error e => rfl
        | ok s'' => simp only [h1]; rfl
    · rfl

/-- The value an attribute has after the call. -/
def shown (c : Chain) (kw : Dict Py) (a : String) : Py :=
  ((origin c a).getD (.const .null)).val c.sig kw

/-- The calls of `c` that succeed are those with valid settings, and the space is what
`_enhance_priors` makes of it. -/
def Halving (c : Chain) (X : Ctx → (String → Py) → Prop) : Prop :=
  ∀ ctx s kw s', (∃ o, construct ctx c s kw = .ok o ∧ o.space = s') ↔
    c.sig.fits kw = true ∧ HalvingOk ctx s (shown c kw) ∧
    s.enhance (shown c kw "use_priors").truthy (shown c kw "prior_confidence").confidence = some s' ∧
    X ctx (shown c kw)

theorem Halving.congr {c : Chain} {X Y : Ctx → (String → Py) → Prop} (h : Halving c X)
    (hxy : ∀ ctx kw, X ctx (shown c kw) ↔ Y ctx (shown c kw)) : Halving c Y := by
  intro ctx s kw s'
  rw [h ctx s kw s', hxy]

/-- The names that matter for whether a call succeeds. -/
def watched : List String := "model_policy" :: checkedSettings

/-- The attributes in `names` hold what the constructor of the parent makes of them. -/
def consistent (l : Level) (ls : Chain) (names : List String) : Bool :=
  names.all fun p =>
    match Dict.get? l.attrs.reverse p with
    | none => true
    | some (.arg q) =>
      match origin ls p with
      | some (.arg r) => match l.pass.get? r with
        | some (.arg t) => t == q
        | _ => false
      | _ => false
    | _ => false

/-- The parent accepts the names of the arguments it is called with. -/
def passFits (l : Level) (ls : Chain) : Bool :=
  (ls.sig.rest || l.pass.keys.all fun k => decide (k ∈ ls.sig.names)) &&
    ls.sig.required.all fun k => decide (k ∈ l.pass.keys)

theorem passFits_fits {l : Level} {ls : Chain} (h : passFits l ls = true) (kw : Dict Py) :
    ls.sig.fits (evalAll l.sig kw l.pass) = true := by
  unfold Sig.fits
  rw [evalAll_keys]
  exact h

theorem shown_step {l : Level} {ls : Chain} {names : List String}
    (h : consistent l ls names = true) (kw : Dict Py) {p : String} (hp : p ∈ names) :
    shown ls (evalAll l.sig kw l.pass) p = shown (l :: ls) kw p ∨
      (origin ls p = none) := by
  rw [consistent, List.all_eq_true] at h
  have h := h p hp
  cases ho : origin ls p with
  | none => right; rfl
  | some src =>
    left
    unfold shown
    simp only [origin, ho]
    cases ha : Dict.get? l.attrs.reverse p with
    | none =>
      simp only [Option.map_some, Option.none_or, Option.getD_some]
      cases src with
      | const v => rfl
      | arg q =>
        simp only [Src.val, Chain.sig]
        rw [value_pass]
        rfl
    | some a =>
      simp only [ha, ho] at h
      cases a with
      | const v => simp at h
      | arg q =>
        cases src with
        | const v => simp at h
        | arg r =>
          simp only at h
          cases hpass : l.pass.get? r with
          | none => simp [hpass] at h
          | some t =>
            cases t with
            | const v => simp [hpass] at h
            | arg t =>
              simp only [hpass] at h
              simp only [Option.getD_some, Src.val, Option.some_or, Chain.sig]
              rw [value_pass, hpass, eq_of_beq h]
              rfl

/-- All checked settings are attributes. -/
def shows (c : Chain) (names : List String) : Bool := names.all fun p => (origin c p).isSome

theorem shown_checked {l : Level} {ls : Chain} {names : List String}
    (h : consistent l ls names = true) (hs : shows ls names = true) (kw : Dict Py) {p : String}
    (hp : p ∈ names) : shown ls (evalAll l.sig kw l.pass) p = shown (l :: ls) kw p := by
  rcases shown_step h kw hp with h' | h'
  · exact h'
  · rw [shows, List.all_eq_true] at hs
    have := hs p hp
    rw [h'] at this
    simp at this

theorem Halving.sh : Halving shChain fun _ _ => True := by
  intro ctx s kw s'
  rw [construct_plain (by simp [shChain, shBaseLevel, baseLevel])]
  have hv : ∀ p ∈ checkedSettings, shown shChain kw p = shBaseLevel.sig.value kw p := by
    intro p hp
    have : fromArg shChain p p = true := by
      revert p
      decide +kernel
    unfold shown
    rw [fromArg_iff this]
    rfl
  have h1 : (∃ o, (plain ctx shChain s kw).map (fun r => (⟨r.1, r.2, []⟩ : Made)) = .ok o ∧
      o.space = s') ↔ ∃ d, plain ctx shChain s kw = .ok (s', d) := by
    cases plain ctx shChain s kw with
    | error e => simp [Except.map]
    | ok r =>
      obtain ⟨a, b⟩ := r
      simp [Except.map]
  rw [h1, shChain_plain]
  rw [hv "use_priors" (by decide), hv "prior_confidence" (by decide)]
  constructor
  · rintro ⟨a, b, c⟩
    exact ⟨a, b.congr hv, c, trivial⟩
  · rintro ⟨a, b, c, -⟩
    exact ⟨a, b.congr fun p hp => (hv p hp).symm, c⟩

/-- A constructor that passes its arguments on and checks `Y`. -/
theorem Halving.pass {l : Level} {ls : Chain} {X : Ctx → (String → Py) → Prop}
    {Y : Ctx → (String → Py) → Prop} (h : Halving ls X) (hl : l.brackets = none)
    (hb : ∀ ctx s v s', l.body ctx s v = .ok s' ↔ s' = s ∧ Y ctx v)
    (hc : consistent l ls checkedSettings = true) (hs : shows ls checkedSettings = true)
    (hf : passFits l ls = true) {Z : Ctx → (String → Py) → Prop}
    (hz : ∀ ctx kw, (X ctx (shown ls (evalAll l.sig kw l.pass)) ∧ Y ctx (l.sig.value kw)) ↔
      Z ctx (shown (l :: ls) kw)) : Halving (l :: ls) Z := by
  intro ctx s kw s'
  have hv : ∀ p ∈ checkedSettings, shown ls (evalAll l.sig kw l.pass) p = shown (l :: ls) kw p :=
    fun p hp => shown_checked hc hs kw hp
  have hin := h ctx s (evalAll l.sig kw l.pass) s'
  rw [hv "use_priors" (by decide), hv "prior_confidence" (by decide)] at hin
  simp only [passFits_fits hf kw, true_and] at hin
  have hkey : (∃ o, construct ctx (l :: ls) s kw = .ok o ∧ o.space = s') ↔ l.sig.fits kw = true ∧
      (∃ o, construct ctx ls s (evalAll l.sig kw l.pass) = .ok o ∧ o.space = s') ∧
      Y ctx (l.sig.value kw) := by
    simp only [construct]
    split_ifs with hfit
    · cases construct ctx ls s (evalAll l.sig kw l.pass) with
      | error e => simp
      | ok o =>
        cases hbody : l.body ctx o.space (l.sig.value kw) with
        | error e =>
          have : ¬ Y ctx (l.sig.value kw) := by
            intro hy
            have := (hb ctx o.space (l.sig.value kw) o.space).mpr ⟨rfl, hy⟩
            rw [this] at hbody
            cases hbody
          simp [this, hbody]
        | ok s1 =>
          obtain ⟨rfl, hy⟩ := (hb ctx o.space (l.sig.value kw) s1).mp hbody
          simp [hl, hy, hfit, hbody]
    · simp [hfit]
  rw [hkey, hin]
  have hzz := hz ctx kw
  constructor
  · rintro ⟨a, ⟨b, c, d⟩, e⟩
    exact ⟨a, b.congr fun p hp => (hv p hp).symm, c, hzz.mp ⟨d, e⟩⟩
  · rintro ⟨a, b, c, d⟩
    obtain ⟨d, e⟩ := hzz.mpr d
    exact ⟨a, ⟨b.congr hv, c, d⟩, e⟩

/-- Building the brackets. -/
theorem makeBrackets_ok {ctx : Ctx} {c : Chain} {args : Dict Py} {s : SearchSpace}
    (hc : Halving c fun _ _ => True) (hbr : ∀ l ∈ c, l.brackets = none) {rs : List ℕ}
    (h : ∀ r ∈ rs, c.sig.fits (args.set "early_stopping_rate" (.int r)) = true ∧
      HalvingOk ctx s (shown c (args.set "early_stopping_rate" (.int r))) ∧
      s.enhance (shown c (args.set "early_stopping_rate" (.int r)) "use_priors").truthy
        (shown c (args.set "early_stopping_rate" (.int r)) "prior_confidence").confidence = some s) :
    ∃ bs, makeBrackets ctx c args rs s = .ok (s, bs) := by
  induction rs with
  | nil => exact ⟨[], rfl⟩
  | cons r rs ih =>
    obtain ⟨bs, hbs⟩ := ih fun r' hr' => h r' (by simp [hr'])
    obtain ⟨h1, h2, h3⟩ := h r (by simp)
    obtain ⟨o, ho, hos⟩ := (hc ctx s (args.set "early_stopping_rate" (.int r)) s).mpr
      ⟨h1, h2, h3, trivial⟩
    rw [construct_plain hbr] at ho
    cases hp : plain ctx c s (args.set "early_stopping_rate" (.int r)) with
    | error e => rw [hp] at ho; simp [Except.map] at ho
    | ok q =>
      obtain ⟨s1, d⟩ := q
      rw [hp] at ho
      simp only [Except.map, Except.ok.injEq] at ho
      subst ho
      simp only at hos
      subst hos
      refine ⟨d :: bs, ?_⟩
      simp only [makeBrackets, hp, hbs]

/-- The settings every bracket shares with the optimizer. -/
def sharedSettings : List String :=
  ["random_interleave_prob", "sampling_policy", "promotion_policy", "eta", "use_priors",
   "prior_confidence"]

/-- A constructor that passes its arguments on and builds brackets with stopping rates up to the
limit. -/
theorem Halving.withBrackets {l : Level} {ls c : Chain} {args : Dict Src}
    {X Z : Ctx → (String → Py) → Prop} (h : Halving ls X) (hl : l.brackets = some (c, args))
    (hb : ∀ ctx s v, l.body ctx s v = .ok s)
    (hcon : consistent l ls checkedSettings = true) (hs : shows ls checkedSettings = true)
    (hf : passFits l ls = true) (hc : Halving c fun _ _ => True) (hbr : ∀ l ∈ c, l.brackets = none)
    (hfit : ∀ kw r, c.sig.fits ((evalAll l.sig kw args).set "early_stopping_rate" r) = true)
    (hsh : ∀ kw r, ∀ p ∈ sharedSettings,
      shown c ((evalAll l.sig kw args).set "early_stopping_rate" r) p = shown (l :: ls) kw p)
    (hrate : ∀ kw r,
      shown c ((evalAll l.sig kw args).set "early_stopping_rate" r) "early_stopping_rate" = r)
    (heta : ∀ kw, shown (l :: ls) kw "eta" = l.sig.value kw "eta")
    (hz : ∀ ctx kw, X ctx (shown ls (evalAll l.sig kw l.pass)) ↔ Z ctx (shown (l :: ls) kw)) :
    Halving (l :: ls) Z := by
  intro ctx s kw s'
  have hv : ∀ p ∈ checkedSettings, shown ls (evalAll l.sig kw l.pass) p = shown (l :: ls) kw p :=
    fun p hp => shown_checked hcon hs kw hp
  have hin : ∀ s', (∃ o, construct ctx ls s (evalAll l.sig kw l.pass) = .ok o ∧ o.space = s') ↔
      HalvingOk ctx s (shown (l :: ls) kw) ∧
      s.enhance (shown (l :: ls) kw "use_priors").truthy
        (shown (l :: ls) kw "prior_confidence").confidence = some s' ∧
      Z ctx (shown (l :: ls) kw) := by
    intro s'
    have hin := h ctx s (evalAll l.sig kw l.pass) s'
    rw [hv "use_priors" (by decide), hv "prior_confidence" (by decide)] at hin
    simp only [passFits_fits hf kw, true_and] at hin
    rw [hin, hz]
    constructor
    · rintro ⟨a, b⟩
      exact ⟨a.congr fun p hp => (hv p hp).symm, b⟩
    · rintro ⟨a, b⟩
      exact ⟨a.congr hv, b⟩
  have hmake : ∀ s1, HalvingOk ctx s (shown (l :: ls) kw) →
      s.enhance (shown (l :: ls) kw "use_priors").truthy
        (shown (l :: ls) kw "prior_confidence").confidence = some s1 →
      ∃ bs, makeBrackets ctx c (evalAll l.sig kw args)
        (List.range ((ctx.limitOf s1 (l.sig.value kw "eta")).getD (-1) + 1).toNat) s1 =
          .ok (s1, bs) := by
    intro s1 hok hen
    obtain ⟨h1, h2, h3, ⟨limit, r0, h4, h5, h6⟩, h7⟩ := hok
    have hlim : ctx.limitOf s1 (l.sig.value kw "eta") = some limit := by
      rw [limitOf_enhance hen, ← heta, h4]
    refine makeBrackets_ok hc hbr fun r hr => ⟨hfit _ _, ?_, ?_⟩
    · refine ⟨?_, ?_, ?_, ?_, ?_⟩
      · rw [hsh _ _ _ (by decide)]; exact h1
      · rw [hsh _ _ _ (by decide)]; exact h2
      · rw [hsh _ _ _ (by decide)]; exact h3
      · rw [hsh _ _ _ (by decide), hrate, heta]
        refine ⟨limit, r, hlim, rfl, ?_⟩
        rw [hlim, Option.getD_some, List.mem_range] at hr
        have : (r : ℤ) ≤ limit := by omega
        exact_mod_cast this
      · rw [hsh _ _ _ (by decide), hsh _ _ _ (by decide)]
        exact ⟨s1, (enhance_again hen).1⟩
    · rw [hsh _ _ _ (by decide), hsh _ _ _ (by decide)]
      exact (enhance_again hen).1
  simp only [construct]
  split_ifs with hfits
  · have hst : Chain.sig (l :: ls) = l.sig := rfl
    rw [hst]
    cases hp : construct ctx ls s (evalAll l.sig kw l.pass) with
    | error e =>
      have := hin s'
      rw [hp] at this
      simp only [reduceCtorEq, false_and, exists_false, false_iff] at this ⊢
      exact fun h => this h.2
    | ok o =>
      obtain ⟨h1, h2, h3⟩ := (hin o.space).mp ⟨o, hp, rfl⟩
      obtain ⟨bs, hbs⟩ := hmake o.space h1 h2
      simp only [hb, hl, hbs]
      constructor
      · rintro ⟨o', ho', rfl⟩
        simp only [Except.ok.injEq] at ho'
        subst ho'
        exact ⟨hfits, h1, h2, h3⟩
      · rintro ⟨_, _, h5, _⟩
        rw [h2] at h5
        exact ⟨_, rfl, Option.some.inj h5⟩
  · constructor
    · rintro ⟨o, ho, _⟩
      cases ho
    · rintro ⟨h1, _⟩
      exact absurd h1 hfits

/-! ## The classes -/

theorem shown_eq {c : Chain} {a p : String} (h : fromArg c a p = true) (kw : Dict Py) :
    shown c kw a = c.sig.value kw p := by
  unfold shown
  rw [fromArg_iff h]
  rfl

theorem noBody (s : SearchSpace) (s' : SearchSpace) :
    ((.ok s : Except Raised SearchSpace) = .ok s') ↔ s' = s ∧ True := by
  simp only [Except.ok.injEq, and_true]
  exact eq_comm

theorem Halving.shPrior : Halving shPriorChain fun _ _ => True :=
  Halving.sh.pass (Y := fun _ _ => True) rfl (fun _ s _ s' => noBody s s') (by decide +kernel)
    (by decide +kernel) (by decide +kernel) (by simp)

theorem Halving.asha : Halving ashaChain fun _ _ => True :=
  Halving.sh.pass (Y := fun _ _ => True) rfl (fun _ s _ s' => noBody s s') (by decide +kernel)
    (by decide +kernel) (by decide +kernel) (by simp)

theorem Halving.ashaPrior : Halving ashaPriorChain fun _ _ => True :=
  Halving.asha.pass (Y := fun _ _ => True) rfl (fun _ s _ s' => noBody s s')
    (by decide +kernel) (by decide +kernel) (by decide +kernel) (by simp)

/-- The call of a bracket has the arguments the class needs. -/
def bracketFits (c : Chain) (args : Dict Src) : Bool :=
  (("early_stopping_rate" :: args.keys).all fun k => decide (k ∈ c.sig.names)) &&
    c.sig.required.all fun k => decide (k ∈ args.keys)

theorem bracketFits_fits {l : Level} {c : Chain} {args : Dict Src} (h : bracketFits c args = true)
    (kw : Dict Py) (r : Py) :
    c.sig.fits ((evalAll l.sig kw args).set "early_stopping_rate" r) = true := by
  simp only [bracketFits, Bool.and_eq_true, List.all_eq_true, decide_eq_true_eq, List.mem_cons,
    forall_eq_or_imp] at h
  obtain ⟨⟨h1, h2⟩, h3⟩ := h
  simp only [Sig.fits, Bool.and_eq_true, Bool.or_eq_true, List.all_eq_true, decide_eq_true_eq]
  constructor
  · right
    intro k hk
    rw [Dict.mem_keys_set, evalAll_keys] at hk
    rcases hk with hk | hk
    · first | exact h2 k hk | (subst hk; exact h1)
    · exact h2 k hk
  · intro k hk
    rw [Dict.mem_keys_set, evalAll_keys]
    first | exact .inl (h3 k hk) | exact .inr (h3 k hk)

/-- What a bracket shows of a setting is what the optimizer shows. -/
def sharesArg (l : Level) (ls c : Chain) (args : Dict Src) (p : String) : Bool :=
  fromArg c p p && (p != "early_stopping_rate") &&
    (match args.get? p, origin (l :: ls) p with
      | some (.arg q), some (.arg r) => q == r
      | some (.const (.bool a)), some (.const (.bool b)) => a == b
      | _, _ => false)

/-- The bracket's class decides itself that the prior is used, as does the class of the optimizer. -/
def bothConst (l : Level) (ls c : Chain) (p : String) : Bool :=
  match origin c p, origin (l :: ls) p with
  | some (.const (.bool a)), some (.const (.bool b)) => a == b
  | _, _ => false

theorem shares_shown {l : Level} {ls c : Chain} {args : Dict Src} {p : String}
    (h : (sharesArg l ls c args p || bothConst l ls c p) = true) (kw : Dict Py) (r : Py) :
    shown c ((evalAll l.sig kw args).set "early_stopping_rate" r) p = shown (l :: ls) kw p := by
  rw [Bool.or_eq_true] at h
  rcases h with h | h
  · simp only [sharesArg, Bool.and_eq_true, bne_iff_ne, ne_eq] at h
    obtain ⟨⟨h1, h2⟩, h3⟩ := h
    rw [shown_eq h1]
    unfold Sig.value
    rw [Dict.get?_set, if_neg h2, evalAll_get?]
    unfold shown
    split at h3
    · rename_i q r' e1 e2
      rw [e1, e2, eq_of_beq h3]
      rfl
    · rename_i a b e1 e2
      rw [e1, e2, eq_of_beq h3]
      rfl
    · simp at h3
  · unfold shown
    unfold bothConst at h
    split at h
    · rename_i a b e1 e2
      rw [e1, e2, eq_of_beq h]
      rfl
    · simp at h

theorem rate_shown {l : Level} {c : Chain} {args : Dict Src}
    (h : fromArg c "early_stopping_rate" "early_stopping_rate" = true) (kw : Dict Py) (r : Py) :
    shown c ((evalAll l.sig kw args).set "early_stopping_rate" r) "early_stopping_rate" = r := by
  rw [shown_eq h]
  unfold Sig.value
  rw [Dict.get?_set, if_pos rfl]
  rfl

/-- The chain of `Hyperband`. -/
noncomputable abbrev hbChain : Chain := hbLevel :: shChain

theorem Halving.hb : Halving hbChain fun _ _ => True :=
  Halving.sh.withBrackets (c := shChain) (args := same ("use_priors" :: commonArgs)) rfl
    (fun _ _ _ => rfl) (by decide +kernel) (by decide +kernel) (by decide +kernel) Halving.sh
    (by simp [shChain, shBaseLevel, baseLevel]) (fun kw r => bracketFits_fits (by decide +kernel) kw r)
    (fun kw r p hp => shares_shown (by revert p; decide +kernel) kw r)
    (fun kw r => rate_shown (by decide +kernel) kw r)
    (fun kw => shown_eq (by decide +kernel) kw) (by simp)

theorem Halving.hbCustom : Halving (hbCustomLevel :: hbPriorLevel :: hbChain) fun _ _ => True :=
  (Halving.hb.pass (Z := fun _ _ => True) (Y := fun _ _ => True) (l := hbPriorLevel) rfl
    (fun _ s _ s' => noBody s s')
    (by decide +kernel) (by decide +kernel) (by decide +kernel) (by simp)).pass
    (Y := fun _ _ => True) rfl (fun _ s _ s' => noBody s s')
    (by decide +kernel) (by decide +kernel) (by decide +kernel) (by simp)

theorem Halving.ahb : Halving (ahbLevel :: hbChain) fun _ _ => True :=
  Halving.hb.withBrackets (c := ashaChain) (args := same ("use_priors" :: commonArgs)) rfl
    (fun _ _ _ => rfl) (by decide +kernel) (by decide +kernel) (by decide +kernel) Halving.asha
    (by simp [ashaChain, ashaLevel, shChain, shBaseLevel, baseLevel])
    (fun kw r => bracketFits_fits (by decide +kernel) kw r)
    (fun kw r p hp => shares_shown (by revert p; decide +kernel) kw r)
    (fun kw r => rate_shown (by decide +kernel) kw r)
    (fun kw => shown_eq (by decide +kernel) kw) (by simp)

/-- The model policy can be called. -/
def ModelOk (ctx : Ctx) (v : String → Py) : Prop :=
  ctx.accepts (v "model_policy") ["pipeline_space", "prior"] = true

/-- The policies of PriorBand can be called. -/
def EnsembleOk (ctx : Ctx) (v : String → Py) : Prop :=
  ctx.accepts (v "sampling_policy") ["pipeline_space", "inc_type"] = true ∧ ModelOk ctx v

theorem mobster_body (ctx : Ctx) (s : SearchSpace) (v : String → Py) (s' : SearchSpace) :
    mobsterLevel.body ctx s v = .ok s' ↔ s' = s ∧ ModelOk ctx v := by
  unfold ModelOk
  simp only [mobsterLevel]
  split_ifs with h
  · simp [h, eq_comm]
  · simp [h]

theorem ensemble_body (l : Level) (hl : l = priorbandLevel ∨ l = pbAshaLevel) (ctx : Ctx)
    (s : SearchSpace) (v : String → Py) (s' : SearchSpace) :
    l.body ctx s v = .ok s' ↔ s' = s ∧ EnsembleOk ctx v := by
  unfold EnsembleOk ModelOk
  have e : l.body ctx s v =
      if ¬ ctx.accepts (v "sampling_policy") ["pipeline_space", "inc_type"] then .error .typeError
      else if ctx.accepts (v "model_policy") ["pipeline_space", "prior"] then .ok s
      else .error .typeError := by
    rcases hl with rfl | rfl <;> rfl
  rw [e]
  by_cases h : ctx.accepts (v "sampling_policy") ["pipeline_space", "inc_type"] = true
  · by_cases h' : ctx.accepts (v "model_policy") ["pipeline_space", "prior"] = true
    · rw [if_neg (by simp [h]), if_pos h']
      simp [h, h', eq_comm]
    · rw [if_neg (by simp [h]), if_neg h']
      simp [h']
  · rw [if_pos h]
    simp [h]

theorem Halving.mobster : Halving (mobsterLevel :: ahbLevel :: hbChain) ModelOk :=
  Halving.ahb.pass rfl mobster_body (by decide +kernel) (by decide +kernel) (by decide +kernel)
    (fun ctx kw => by
      unfold ModelOk
      rw [shown_eq (p := "model_policy") (by decide +kernel)]
      simp [Chain.sig])

theorem Halving.priorband : Halving (priorbandLevel :: hbCustomLevel :: hbPriorLevel :: hbChain)
    EnsembleOk :=
  Halving.hbCustom.pass rfl (ensemble_body _ (.inl rfl)) (by decide +kernel) (by decide +kernel)
    (by decide +kernel) (fun ctx kw => by
      unfold EnsembleOk ModelOk
      rw [shown_eq (a := "model_policy") (p := "model_policy") (by decide +kernel),
        shown_eq (a := "sampling_policy") (p := "sampling_policy") (by decide +kernel)]
      simp [Chain.sig])

theorem Halving.pbAsha : Halving (pbAshaLevel :: ashaPriorChain) EnsembleOk :=
  Halving.ashaPrior.pass rfl (ensemble_body _ (.inr rfl)) (by decide +kernel) (by decide +kernel)
    (by decide +kernel) (fun ctx kw => by
      unfold EnsembleOk ModelOk
      rw [shown_eq (a := "model_policy") (p := "model_policy") (by decide +kernel),
        shown_eq (a := "sampling_policy") (p := "sampling_policy") (by decide +kernel)]
      simp [Chain.sig])

theorem Halving.pbAshaHb : Halving (pbAshaHbLevel :: pbAshaLevel :: ashaPriorChain) EnsembleOk :=
  Halving.pbAsha.withBrackets (c := ashaPriorChain) (args := same commonArgs) rfl
    (fun _ _ _ => rfl) (by decide +kernel) (by decide +kernel) (by decide +kernel) Halving.ashaPrior
    (by simp [ashaPriorChain, ashaPriorLevel, ashaChain, ashaLevel, shChain, shBaseLevel, baseLevel])
    (fun kw r => bracketFits_fits (by decide +kernel) kw r)
    (fun kw r p hp => shares_shown (by revert p; decide +kernel) kw r)
    (fun kw r => rate_shown (by decide +kernel) kw r)
    (fun kw => shown_eq (by decide +kernel) kw) (fun ctx kw => by
      unfold EnsembleOk ModelOk
      have h : consistent pbAshaHbLevel (pbAshaLevel :: ashaPriorChain)
        ["model_policy", "sampling_policy"] = true := by decide +kernel
      have h' : shows (pbAshaLevel :: ashaPriorChain)
        ["model_policy", "sampling_policy"] = true := by decide +kernel
      rw [shown_checked h h' kw (by decide), shown_checked h h' kw (by decide)])

end Verif.Args
