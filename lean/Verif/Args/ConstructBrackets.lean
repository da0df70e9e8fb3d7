import Verif.Args.ConstructAccept

/-!
# Lemmas about the brackets of an optimizer
-/

namespace Verif.Args

open Verif.Space (Dict)
open Verif.Space

/-- The value of an attribute of a bracket: a value in the call of the optimizer, or the stopping
rate of the bracket. -/
inductive BracketSrc where
  | src (s : Src)
  | rate

/-- Its value in a call, for the bracket with number `i`. -/
def BracketSrc.val (s : Sig) (kw : Dict Py) (i : ℕ) : BracketSrc → Py
  | .src x => x.val s kw
  | .rate => .int i

/-- The value of an attribute of the brackets, in terms of the arguments of the call. -/
def bracketOrigin : Chain → String → Option BracketSrc
  | [], _ => none
  | l :: ls, a =>
    ((Dict.get? l.bracketAttrs.reverse a).map .src).or
      (match l.brackets with
        | some (c, args) => (origin c a).map fun src => match src with
          | .const v => .src (.const v)
          | .arg p =>
            if p = "early_stopping_rate" then .rate
            else .src ((args.get? p).getD (.const (((Chain.sig c).optional.get? p).getD .null)))
        | none => (bracketOrigin ls a).map fun src => match src with
          | .rate => .rate
          | .src (.const v) => .src (.const v)
          | .src (.arg p) => .src ((l.pass.get? p).getD
              (.const (((Chain.sig ls).optional.get? p).getD .null))))

theorem makeBrackets_get {ctx : Ctx} {c : Chain} {args : Dict Py} {rs : List ℕ}
    {s s' : SearchSpace} {bs : List (Dict Py)} (h : makeBrackets ctx c args rs s = .ok (s', bs)) :
    bs.length = rs.length ∧ ∀ (i : ℕ) (b : Dict Py), bs[i]? = some b → ∃ (r : ℕ) (s1 s2 : SearchSpace),
      rs[i]? = some r ∧
      plain ctx c s1 (args.set "early_stopping_rate" (.int r)) = .ok (s2, b) := by
  induction rs generalizing s s' bs with
  | nil =>
    simp only [makeBrackets, Except.ok.injEq, Prod.mk.injEq] at h
    obtain ⟨_, rfl⟩ := h
    simp
  | cons r rs ih =>
    simp only [makeBrackets] at h
    cases hp : plain ctx c s (args.set "early_stopping_rate" (.int r)) with
    | error e => simp [hp] at h
    | ok q =>
      obtain ⟨s1, b1⟩ := q
      simp only [hp] at h
      cases hm : makeBrackets ctx c args rs s1 with
      | error e => simp [hm] at h
      | ok q =>
        obtain ⟨s2, bs2⟩ := q
        simp only [hm, Except.ok.injEq, Prod.mk.injEq] at h
        obtain ⟨_, rfl⟩ := h
        obtain ⟨h1, h2⟩ := ih hm
        refine ⟨by simp [h1], fun i b hb => ?_⟩
        cases i with
        | zero =>
          simp only [List.getElem?_cons_zero, Option.some.injEq] at hb
          subst hb
          exact ⟨r, s, s1, rfl, hp⟩
        | succ i =>
          rw [List.getElem?_cons_succ] at hb ⊢
          exact h2 i b hb

theorem update_attr {b : Dict Py} {s : Sig} {kw : Dict Py} {d : Dict Src} {a : String} :
    (b.update (evalAll s kw d)).get? a =
      ((Dict.get? d.reverse a).map (Src.val s kw)).or (b.get? a) := by
  rw [Dict.get?_update, evalAll_reverse, evalAll_get?]

theorem bracket_attr {ctx : Ctx} {c : Chain} {s : SearchSpace} {kw : Dict Py} {o : Made}
    (h : construct ctx c s kw = .ok o) {a : String} {src : BracketSrc}
    (ho : bracketOrigin c a = some src) {i : ℕ} {b : Dict Py} (hb : o.brackets[i]? = some b) :
    b.get? a = some (src.val c.sig kw i) := by
  induction c generalizing s kw o src b with
  | nil => simp [bracketOrigin] at ho
  | cons l ls ih =>
    simp only [construct] at h
    split_ifs at h with hf
    cases hp : construct ctx ls s (evalAll l.sig kw l.pass) with
    | error e => simp [hp] at h
    | ok o' =>
      simp only [hp] at h
      cases hbody : l.body ctx o'.space (l.sig.value kw) with
      | error e => simp [hbody] at h
      | ok s'' =>
        simp only [hbody] at h
        simp only [bracketOrigin] at ho
        simp only [Chain.sig]
        cases hl : l.brackets with
        | none =>
          simp only [hl, Except.ok.injEq] at h
          subst h
          simp only [List.getElem?_map, Option.map_eq_some_iff] at hb
          obtain ⟨b0, hb0, rfl⟩ := hb
          rw [update_attr]
          simp only [hl] at ho
          cases ha : Dict.get? l.bracketAttrs.reverse a with
          | some v =>
            rw [ha] at ho
            simp only [Option.map_some, Option.some_or, Option.some.injEq] at ho
            subst ho
            rfl
          | none =>
            rw [ha] at ho
            simp only [Option.map_none, Option.none_or, Option.map_eq_some_iff] at ho
            obtain ⟨src', ho', rfl⟩ := ho
            simp only [Option.map_none, Option.none_or]
            rw [ih hp ho' hb0]
            cases src' with
            | rate => rfl
            | src x =>
              cases x with
              | const v => rfl
              | arg p => exact congrArg some (value_pass _ _ _ _ _)
        | some q =>
          obtain ⟨c', args⟩ := q
          simp only [hl] at h ho
          cases hm : makeBrackets ctx c' (evalAll l.sig kw args)
              (List.range ((ctx.limitOf s'' (l.sig.value kw "eta")).getD (-1) + 1).toNat) s'' with
          | error e => simp [hm] at h
          | ok q =>
            obtain ⟨s2, bs⟩ := q
            simp only [hm, Except.ok.injEq] at h
            subst h
            simp only [List.getElem?_map, Option.map_eq_some_iff] at hb
            obtain ⟨b0, hb0, rfl⟩ := hb
            rw [update_attr]
            cases ha : Dict.get? l.bracketAttrs.reverse a with
            | some v =>
              rw [ha] at ho
              simp only [Option.map_some, Option.some_or, Option.some.injEq] at ho
              subst ho
              rfl
            | none =>
              rw [ha] at ho
              simp only [Option.map_none, Option.none_or, Option.map_eq_some_iff] at ho
              obtain ⟨src', ho', rfl⟩ := ho
              simp only [Option.map_none, Option.none_or]
              obtain ⟨r, s1, s3, hr, hpl⟩ := (makeBrackets_get hm).2 i b0 hb0
              have hri : r = i := by
                obtain ⟨_, h2⟩ := List.getElem?_eq_some_iff.mp hr
                rw [← h2, List.getElem_range]
              subst hri
              rw [plain_attr hpl ho']
              cases src' with
              | const v => rfl
              | arg p =>
                simp only [Src.val]
                by_cases he : p = "early_stopping_rate"
                · subst he
                  rw [if_pos rfl]
                  unfold Sig.value
                  rw [Dict.get?_set, if_pos rfl]
                  rfl
                · rw [if_neg he]
                  have : Sig.value (Chain.sig c') ((evalAll l.sig kw args).set
                      "early_stopping_rate" (.int r)) p =
                      Sig.value (Chain.sig c') (evalAll l.sig kw args) p := by
                    unfold Sig.value
                    rw [Dict.get?_set, if_neg he]
                  rw [this]
                  exact congrArg some (value_pass _ _ _ _ _)

/-- There is a bracket for every stopping rate up to the limit. -/
def Counted (c : Chain) : Prop :=
  ∀ ctx s kw o, construct ctx c s kw = .ok o →
    (o.brackets.length : ℤ) = max 0 ((ctx.limitOf s (shown c kw "eta")).getD (-1) + 1)

theorem Counted.here {l : Level} {ls c : Chain} {args : Dict Src} {X : Ctx → (String → Py) → Prop}
    (h : Halving ls X) (hl : l.brackets = some (c, args)) (hb : ∀ ctx s v, l.body ctx s v = .ok s)
    (heta : ∀ kw, shown (l :: ls) kw "eta" = l.sig.value kw "eta") : Counted (l :: ls) := by
  intro ctx s kw o ho
  simp only [construct] at ho
  split_ifs at ho with hf
  cases hp : construct ctx ls s (evalAll l.sig kw l.pass) with
  | error e => simp [hp] at ho
  | ok o' =>
    simp only [hp, hb, hl] at ho
    obtain ⟨_, _, hen, _⟩ := (h ctx s _ o'.space).mp ⟨o', hp, rfl⟩
    cases hm : makeBrackets ctx c (evalAll l.sig kw args)
        (List.range ((ctx.limitOf o'.space (l.sig.value kw "eta")).getD (-1) + 1).toNat) o'.space with
    | error e => simp [hm] at ho
    | ok q =>
      obtain ⟨s2, bs⟩ := q
      simp only [hm, Except.ok.injEq] at ho
      subst ho
      have := (makeBrackets_get hm).1
      simp only [List.length_map]
      rw [this, List.length_range, limitOf_enhance hen, heta]
      omega

theorem Counted.pass {l : Level} {ls : Chain} (h : Counted ls) (hl : l.brackets = none)
    (hc : consistent l ls checkedSettings = true) (hs : shows ls checkedSettings = true) :
    Counted (l :: ls) := by
  intro ctx s kw o ho
  simp only [construct] at ho
  split_ifs at ho with hf
  cases hp : construct ctx ls s (evalAll l.sig kw l.pass) with
  | error e => simp [hp] at ho
  | ok o' =>
    simp only [hp] at ho
    cases hbody : l.body ctx o'.space (l.sig.value kw) with
    | error e => simp [hbody] at ho
    | ok s'' =>
      simp only [hbody, hl, Except.ok.injEq] at ho
      subst ho
      rw [List.length_map, h ctx s _ o' hp, shown_checked hc hs kw (by decide)]

theorem Counted.hb : Counted hbChain :=
  Counted.here Halving.sh rfl (fun _ _ _ => rfl) (fun kw => shown_eq (by decide +kernel) kw)

theorem Counted.hbCustom : Counted (hbCustomLevel :: hbPriorLevel :: hbChain) :=
  (Counted.hb.pass (l := hbPriorLevel) rfl (by decide +kernel) (by decide +kernel)).pass rfl
    (by decide +kernel) (by decide +kernel)

theorem Counted.priorband : Counted (priorbandLevel :: hbCustomLevel :: hbPriorLevel :: hbChain) :=
  Counted.hbCustom.pass rfl (by decide +kernel) (by decide +kernel)

theorem Counted.mobster : Counted (mobsterLevel :: ahbLevel :: hbChain) :=
  (Counted.here (l := ahbLevel) Halving.hb rfl (fun _ _ _ => rfl)
    (fun kw => shown_eq (by decide +kernel) kw)).pass rfl (by decide +kernel) (by decide +kernel)

theorem Counted.pbAshaHb : Counted (pbAshaHbLevel :: pbAshaLevel :: ashaPriorChain) :=
  Counted.here Halving.pbAsha rfl (fun _ _ _ => rfl) (fun kw => shown_eq (by decide +kernel) kw)

/-- The brackets hold the value of the parameter. -/
def bracketArg (c : Chain) (a p : String) : Bool :=
  match bracketOrigin c a with
  | some (.src (.arg q)) => q == p
  | _ => false

theorem bracketArg_iff {c : Chain} {a p : String} (h : bracketArg c a p = true) :
    bracketOrigin c a = some (.src (.arg p)) := by
  unfold bracketArg at h
  split at h
  · rename_i q hq
    rw [hq, eq_of_beq h]
  · simp at h

end Verif.Args
