import Verif.Args.CommandSpec
import Verif.Args.SettingsLemmas

/-!
# Lemmas about the command line of `neps run`
-/

namespace Verif.Args

open Verif.Space (Dict)
open Verif.Space
open Neps (PyFloat PyVal)

/-- The value of an option. -/
def optVal (fs : String → Option PyFloat) : OptKind → List String → Option Py
  | .text, [x] => some (.str x)
  | .int, [x] => (Neps.Cli.pyInt x.toList).map .int
  | .float, [x] => (fs x).map floatPy
  | .setTrue, [] => some (.bool true)
  | .setFalse, [] => some (.bool false)
  | _, _ => none

def allArgs : List String := textArgs ++ countArgs ++ numberArgs ++ switchArgs

/-- The lists of arguments that an option of the kind belongs to. -/
def kindArgs : OptKind → List String
  | .text => textArgs
  | .int => countArgs
  | .float => numberArgs
  | .setTrue => switchArgs
  | .setFalse => ["post_run_summary"]
  | .texts => ["searcher_kwargs"]

theorem options_flag : ∀ o ∈ runOptions, ∀ n ∈ allArgs,
    (o.1 = flagOf n ↔ o.2.1 = n ∧ o.2.2 ≠ .setFalse) := by decide +kernel

theorem options_kind : ∀ o ∈ runOptions, o.2.1 ∈ kindArgs o.2.2 := by decide +kernel

theorem options_setFalse : ∀ o ∈ runOptions, (o.2.2 = .setFalse ↔ o.1 = "--no-post-run-summary") := by
  decide +kernel

theorem options_texts : ∀ o ∈ runOptions, (o.2.2 = .texts ↔ o.1 = "--searcher-kwargs") := by
  decide +kernel

theorem options_summary : ∀ o ∈ runOptions, (o.2.1 = "post_run_summary" ∧ o.2.2 = .setTrue ↔
    o.1 = "--post-run-summary") := by
  decide +kernel

theorem args_disjoint : (∀ n ∈ textArgs, n ∉ countArgs ∧ n ∉ numberArgs ∧ n ∉ switchArgs) ∧
    (∀ n ∈ countArgs, n ∉ textArgs ∧ n ∉ numberArgs ∧ n ∉ switchArgs) ∧
    (∀ n ∈ numberArgs, n ∉ textArgs ∧ n ∉ countArgs ∧ n ∉ switchArgs) ∧
    (∀ n ∈ switchArgs, n ∉ textArgs ∧ n ∉ countArgs ∧ n ∉ numberArgs) := by decide +kernel

theorem sayArg_other {fs : String → Option PyFloat} {name : String} (hn : name ∉ allArgs)
    (tok : String × List String) : sayArg fs name tok = none := by
  simp only [allArgs, List.mem_append, not_or] at hn
  obtain ⟨⟨⟨h1, h2⟩, h3⟩, h4⟩ := hn
  unfold sayArg
  rw [if_neg (by rintro ⟨-, rfl⟩; exact h4 (by decide))]
  split_ifs
  · split <;> rfl
  · rfl

theorem sayArg_opt {fs : String → Option PyFloat} {o : String × String × OptKind}
    (ho : o ∈ runOptions) (name : String) (xs : List String) :
    sayArg fs name (o.1, xs) = if name = o.2.1 then optVal fs o.2.2 xs else none := by
  by_cases hn : name ∈ allArgs
  · have hf := options_flag o ho name hn
    have hk := options_kind o ho
    have hs := options_setFalse o ho
    have hx := options_texts o ho
    obtain ⟨d1, d2, d3, d4⟩ := args_disjoint
    by_cases hfalse : o.2.2 = .setFalse
    · have h1 := hs.mp hfalse
      have hdest : o.2.1 = "post_run_summary" := by
        rw [hfalse] at hk; simpa [kindArgs] using hk
      unfold sayArg
      rw [hdest, hfalse, h1]
      rw [if_neg (c := ("--no-post-run-summary", xs).1 = flagOf name)
        (by rw [← h1]; intro h; exact (hf.mp h).2 hfalse)]
      by_cases hname : name = "post_run_summary"
      · cases xs with
        | nil => simp [hname, optVal]
        | cons x xs => simp [hname, optVal]
      · simp [hname]
    · have h1 : o.1 ≠ "--no-post-run-summary" := fun h => hfalse (hs.mpr h)
      unfold sayArg
      rw [if_neg (by rintro ⟨h, -⟩; exact h1 (congrArg Prod.fst h))]
      by_cases hname : name = o.2.1
      · rw [if_pos hname, if_pos (hf.mpr ⟨hname.symm, hfalse⟩)]
        rw [← hname] at hk
        generalize hkind : o.2.2 = k at *
        have htexts : k ≠ .texts := by
          rintro rfl
          rw [show kindArgs .texts = ["searcher_kwargs"] from rfl] at hk
          rw [List.mem_singleton] at hk
          rw [hk] at hn
          exact absurd hn (by decide)
        cases k with
        | text =>
          replace hk : name ∈ textArgs := hk
          obtain ⟨e1, e2, e3⟩ := d1 name hk
          rcases xs with _ | ⟨x, _ | ⟨y, xs⟩⟩
          · simp [optVal, e3]
          · simp only [optVal]; rw [if_pos hk]
          · rfl
        | int =>
          replace hk : name ∈ countArgs := hk
          obtain ⟨e1, e2, e3⟩ := d2 name hk
          rcases xs with _ | ⟨x, _ | ⟨y, xs⟩⟩
          · simp [optVal, e3]
          · simp only [optVal]; rw [if_neg e1, if_pos hk]
          · rfl
        | float =>
          replace hk : name ∈ numberArgs := hk
          obtain ⟨e1, e2, e3⟩ := d3 name hk
          rcases xs with _ | ⟨x, _ | ⟨y, xs⟩⟩
          · simp [optVal, e3]
          · simp only [optVal]; rw [if_neg e1, if_neg e2, if_pos hk]
          · rfl
        | setTrue =>
          replace hk : name ∈ switchArgs := hk
          obtain ⟨e1, e2, e3⟩ := d4 name hk
          rcases xs with _ | ⟨x, _ | ⟨y, xs⟩⟩
          · simp only [optVal]; rw [if_pos hk]
          · simp only [optVal]; rw [if_neg e1, if_neg e2, if_neg e3]
          · rfl
        | setFalse => exact absurd rfl hfalse
        | texts => exact absurd rfl htexts
      · rw [if_neg hname, if_neg (fun h => hname (hf.mp h).1.symm)]
  · rw [sayArg_other hn]
    by_cases hname : name = o.2.1
    · rw [if_pos hname]
      have hk := options_kind o ho
      rw [← hname] at hk
      have : o.2.2 = .texts := by
        by_contra hne
        apply hn
        generalize o.2.2 = k at *
        cases k <;> simp [kindArgs] at hk
        all_goals first | (simp [allArgs, hk]; done) | exact absurd rfl hne | (subst hk; decide)
      rw [this]
      rcases xs with _ | ⟨x, xs⟩ <;> rfl
    · rw [if_neg hname]

/-- The options that ask for or decline the summary. -/
def isSummary (flag : String) : Prop := flag = "--post-run-summary" ∨ flag = "--no-post-run-summary"

instance (flag : String) : Decidable (isSummary flag) := by unfold isSummary; infer_instance

/-- One option. -/
theorem parseOne_eq (fs : String → Option PyFloat) (ns : Namespace) (tok : String × List String) :
    parseOne fs ns tok =
      if tok.1 = "--searcher-kwargs" then
        if tok.2 = [] then none else some { ns with items := tok.2 }
      else
        match runOptions.find? (fun o => o.1 = tok.1) with
        | none => none
        | some o =>
          match optVal fs o.2.2 tok.2 with
          | none => none
          | some v =>
            if isSummary tok.1 then
              if ns.summary.any (· ≠ tok.1) then none
              else some { ns with args := ns.args.set o.2.1 v, summary := tok.1 :: ns.summary }
            else some { ns with args := ns.args.set o.2.1 v } := by
  unfold parseOne
  rcases hfind : runOptions.find? (fun o => o.1 = tok.1) with _ | ⟨flag, dest, kind⟩
  · simp only [hfind]
    split_ifs with h1 h2
    · rfl
    · rw [h1] at hfind
      exact absurd hfind (by decide)
    · rfl
  · simp only [hfind]
    have ho := List.mem_of_find?_eq_some hfind
    have hflag : flag = tok.1 := by simpa using List.find?_some hfind
    subst hflag
    have hs := options_setFalse _ ho
    have hx := options_texts _ ho
    have hsum := options_summary _ ho
    have hk := options_kind _ ho
    simp only at hs hx hsum hk ⊢
    cases kind with
    | texts =>
      rw [if_pos (hx.mp rfl)]
      rcases tok.2 with _ | ⟨x, xs⟩
      · rfl
      · simp
    | text =>
      have h1 : ¬ isSummary tok.1 := by
        rintro (h | h)
        · exact absurd (hsum.mpr h).2 (by decide)
        · exact absurd (hs.mpr h) (by decide)
      rw [if_neg (fun h => absurd (hx.mpr h) (by decide))]
      rcases tok.2 with _ | ⟨x, _ | ⟨y, xs⟩⟩ <;> simp [optVal, h1]
    | int =>
      have h1 : ¬ isSummary tok.1 := by
        rintro (h | h)
        · exact absurd (hsum.mpr h).2 (by decide)
        · exact absurd (hs.mpr h) (by decide)
      rw [if_neg (fun h => absurd (hx.mpr h) (by decide))]
      rcases tok.2 with _ | ⟨x, _ | ⟨y, xs⟩⟩
      · rfl
      · simp only [optVal, h1, if_false]
        cases Neps.Cli.pyInt x.toList <;> rfl
      · rfl
    | float =>
      have h1 : ¬ isSummary tok.1 := by
        rintro (h | h)
        · exact absurd (hsum.mpr h).2 (by decide)
        · exact absurd (hs.mpr h) (by decide)
      rw [if_neg (fun h => absurd (hx.mpr h) (by decide))]
      rcases tok.2 with _ | ⟨x, _ | ⟨y, xs⟩⟩
      · rfl
      · simp only [optVal, h1, if_false]
        cases fs x <;> rfl
      · rfl
    | setTrue =>
      rw [if_neg (fun h => absurd (hx.mpr h) (by decide))]
      rcases tok.2 with _ | ⟨x, xs⟩
      · simp only [optVal]
        by_cases hd : dest = "post_run_summary"
        · have h2 : isSummary tok.1 := .inl (hsum.mp ⟨hd, rfl⟩)
          rw [if_pos hd]
          simp only [h2, if_true]
        · rw [if_neg hd, if_neg]
          rintro (h | h)
          · exact hd (hsum.mpr h).1
          · exact absurd (hs.mpr h) (by decide)
      · rfl
    | setFalse =>
      rw [if_neg (fun h => absurd (hx.mpr h) (by decide))]
      rcases tok.2 with _ | ⟨x, xs⟩
      · simp only [optVal]
        have h2 : isSummary tok.1 := .inr (hs.mp rfl)
        simp only [h2, if_true]
      · rfl

theorem find_option {fs : String → Option PyFloat} {tok : String × List String} {name : String}
    {v : Py} (h : sayArg fs name tok = some v) :
    ∃ o ∈ runOptions, runOptions.find? (fun o => o.1 = tok.1) = some o ∧ o.1 = tok.1 ∧ o.2.1 = name ∧
      optVal fs o.2.2 tok.2 = some v := by
  have hn : name ∈ allArgs := by
    by_contra hn
    rw [sayArg_other hn] at h
    cases h
  have hex : ∀ n ∈ allArgs, ∃ o ∈ runOptions, o.1 = flagOf n := by decide +kernel
  have hflag : ∃ o ∈ runOptions, o.1 = tok.1 := by
    unfold sayArg at h
    by_cases h1 : tok = ("--no-post-run-summary", []) ∧ name = "post_run_summary"
    · exact ⟨("--no-post-run-summary", "post_run_summary", .setFalse), by decide, by rw [h1.1]⟩
    · rw [if_neg h1] at h
      by_cases h2 : tok.1 = flagOf name
      · rw [h2]; exact hex name hn
      · rw [if_neg h2] at h; cases h
  rcases hfind : runOptions.find? (fun o => o.1 = tok.1) with _ | o
  · obtain ⟨o, ho, he⟩ := hflag
    rw [List.find?_eq_none] at hfind
    exact absurd (by simpa using he) (hfind o ho)
  · have ho := List.mem_of_find?_eq_some hfind
    have he : o.1 = tok.1 := by simpa using List.find?_some hfind
    have := sayArg_opt (fs := fs) ho name tok.2
    rw [he, show (tok.1, tok.2) = tok from rfl, h] at this
    split_ifs at this with hd
    exact ⟨o, ho, hfind, he, hd.symm, this.symm⟩

/-- An option is in order. -/
def Okay (fs : String → Option PyFloat) (tok : String × List String) : Prop :=
  (∃ name v, sayArg fs name tok = some v) ∨ (tok.1 = "--searcher-kwargs" ∧ tok.2 ≠ [])

theorem parseOne_some {fs : String → Option PyFloat} {ns ns' : Namespace} {tok : String × List String}
    (h : parseOne fs ns tok = some ns') :
    Okay fs tok ∧ (∀ name, ns'.args.get? name = (sayArg fs name tok).or (ns.args.get? name)) ∧
    ns'.items = (if tok.1 = "--searcher-kwargs" then tok.2 else ns.items) ∧
    ns'.summary = (if isSummary tok.1 then tok.1 :: ns.summary else ns.summary) ∧
    (isSummary tok.1 → ∀ f ∈ ns.summary, f = tok.1) := by
  rw [parseOne_eq] at h
  by_cases h1 : tok.1 = "--searcher-kwargs"
  · rw [if_pos h1] at h
    by_cases h2 : tok.2 = []
    · rw [if_pos h2] at h; cases h
    rw [if_neg h2, Option.some.injEq] at h
    subst h
    have hns : ¬ isSummary tok.1 := by rw [h1]; decide
    refine ⟨.inr ⟨h1, h2⟩, fun name => ?_, by rw [if_pos h1], by rw [if_neg hns],
      fun h => absurd h hns⟩
    have := sayArg_opt (fs := fs) (o := ("--searcher-kwargs", "searcher_kwargs", .texts))
      (by decide) name tok.2
    rw [show ("--searcher-kwargs", tok.2) = tok by rw [← h1]] at this
    rw [this]
    have : optVal fs .texts tok.2 = none := by rcases tok.2 with _ | ⟨x, xs⟩ <;> rfl
    simp [this]
  · rw [if_neg h1] at h
    rcases hfind : runOptions.find? (fun o => o.1 = tok.1) with _ | o
    · rw [hfind] at h; cases h
    · rw [hfind] at h
      have ho := List.mem_of_find?_eq_some hfind
      have he : o.1 = tok.1 := by simpa using List.find?_some hfind
      have hsay := fun name => sayArg_opt (fs := fs) ho name tok.2
      simp only [he, Prod.mk.eta] at hsay
      simp only at h
      rcases hv : optVal fs o.2.2 tok.2 with _ | v
      · rw [hv] at h; cases h
      · rw [hv] at h
        simp only [hv] at hsay
        simp only at h
        have hok : Okay fs tok := .inl ⟨o.2.1, v, by rw [hsay, if_pos rfl]⟩
        have hget : ∀ name, (ns.args.set o.2.1 v).get? name =
            (sayArg fs name tok).or (ns.args.get? name) := by
          intro name
          rw [hsay, Dict.get?_set]
          split_ifs <;> simp
        split_ifs at h with h2 h3
        · rw [Option.some.injEq] at h
          subst h
          refine ⟨hok, hget, by rw [if_neg h1], by rw [if_pos h2], fun _ f hf => ?_⟩
          by_contra hne
          exact h3 (List.any_eq_true.mpr ⟨f, hf, by simpa using hne⟩)
        · rw [Option.some.injEq] at h
          subst h
          exact ⟨hok, hget, by rw [if_neg h1], by rw [if_neg h2], fun h => absurd h h2⟩

theorem parseOne_ok {fs : String → Option PyFloat} {ns : Namespace} {tok : String × List String}
    (hok : Okay fs tok) (hs : isSummary tok.1 → ∀ f ∈ ns.summary, f = tok.1) :
    ∃ ns', parseOne fs ns tok = some ns' := by
  rw [parseOne_eq]
  by_cases h1 : tok.1 = "--searcher-kwargs"
  · rw [if_pos h1]
    rcases hok with ⟨name, v, hv⟩ | ⟨-, hne⟩
    · obtain ⟨o, ho, -, he, -, hval⟩ := find_option hv
      have := (options_texts o ho).mpr (he.trans h1)
      rw [this] at hval
      rcases hx : tok.2 with _ | ⟨x, xs⟩ <;> rw [hx] at hval <;> cases hval
    · rw [if_neg hne]
      exact ⟨_, rfl⟩
  · rw [if_neg h1]
    rcases hok with ⟨name, v, hv⟩ | ⟨h, -⟩
    · obtain ⟨o, ho, hfind, he, -, hval⟩ := find_option hv
      simp only [hfind, hval]
      split_ifs with h2 h3
      · obtain ⟨f, hf, hne⟩ := List.any_eq_true.mp h3
        exact absurd (hs h2 f hf) (by simpa using hne)
      · exact ⟨_, rfl⟩
      · exact ⟨_, rfl⟩
    · exact absurd h h1

theorem findSome_append {α β : Type*} (f : α → Option β) (l m : List α) :
    (l ++ m).findSome? f = (l.findSome? f).or (m.findSome? f) := by
  rw [List.findSome?_append]

theorem asked_cons (fs : String → Option PyFloat) (tok : String × List String)
    (toks : List (String × List String)) (name : String) :
    asked fs (tok :: toks) name = (asked fs toks name).or (sayArg fs name tok) := by
  unfold asked
  rw [List.reverse_cons, findSome_append]
  congr 1
  simp only [List.findSome?_cons, List.findSome?_nil]
  cases sayArg fs name tok <;> rfl

/-- The words after the last `--searcher-kwargs`, if there is one. -/
def askedItems? (toks : List (String × List String)) : Option (List String) :=
  toks.reverse.findSome? fun tok => if tok.1 = "--searcher-kwargs" then some tok.2 else none

theorem askedItems_cons (tok : String × List String) (toks : List (String × List String)) :
    askedItems? (tok :: toks) = (askedItems? toks).or
      (if tok.1 = "--searcher-kwargs" then some tok.2 else none) := by
  unfold askedItems?
  rw [List.reverse_cons, findSome_append]
  congr 1
  simp only [List.findSome?_cons, List.findSome?_nil]
  split_ifs <;> rfl

theorem parse_some {fs : String → Option PyFloat} : ∀ {toks : List (String × List String)}
    {ns ns' : Namespace}, toks.foldlM (parseOne fs) ns = some ns' →
    (∀ f ∈ ns.summary, ∀ g ∈ ns.summary, f = g) →
    (∀ tok ∈ toks, Okay fs tok) ∧
    (∀ name, ns'.args.get? name = (asked fs toks name).or (ns.args.get? name)) ∧
    ns'.items = (askedItems? toks).getD ns.items ∧
    (∀ f ∈ ns'.summary, ∀ g ∈ ns'.summary, f = g) ∧
    (∀ f ∈ ns.summary, f ∈ ns'.summary) ∧
    (∀ tok ∈ toks, isSummary tok.1 → tok.1 ∈ ns'.summary)
  | [], ns, ns', h, hs => by
    simp only [List.foldlM_nil] at h
    obtain rfl : ns = ns' := by simpa using h
    exact ⟨by simp, fun name => by simp [asked], by simp [askedItems?], hs, fun f hf => hf, by simp⟩
  | tok :: toks, ns, ns', h, hs => by
    rw [List.foldlM_cons] at h
    rcases h1 : parseOne fs ns tok with _ | n1
    · rw [h1] at h; cases h
    · rw [h1] at h
      obtain ⟨a1, a2, a3, a4, a5⟩ := parseOne_some h1
      have hs1 : ∀ f ∈ n1.summary, ∀ g ∈ n1.summary, f = g := by
        rw [a4]
        split_ifs with hsum
        · intro f hf g hg
          have key : ∀ f ∈ tok.1 :: ns.summary, f = tok.1 := by
            intro f hf
            rcases List.mem_cons.mp hf with rfl | hf
            · rfl
            · exact a5 hsum f hf
          rw [key f hf, key g hg]
        · exact hs
      obtain ⟨b1, b2, b3, b4, b5, b6⟩ := parse_some (toks := toks) h hs1
      refine ⟨?_, fun name => ?_, ?_, b4, fun f hf => ?_, ?_⟩
      · intro t ht
        rcases List.mem_cons.mp ht with rfl | ht
        · exact a1
        · exact b1 t ht
      · rw [b2, a2, asked_cons, Option.or_assoc]
      · rw [b3, a3, askedItems_cons]
        cases askedItems? toks with
        | some x => rfl
        | none => simp only [Option.none_or, Option.getD_none]; split_ifs <;> rfl
      · refine b5 f ?_
        rw [a4]
        split_ifs
        · exact List.mem_cons_of_mem _ hf
        · exact hf
      · intro t ht hsum
        rcases List.mem_cons.mp ht with rfl | ht
        · refine b5 _ ?_
          rw [a4, if_pos hsum]
          exact List.mem_cons_self
        · exact b6 t ht hsum

theorem parse_ok {fs : String → Option PyFloat} : ∀ {toks : List (String × List String)}
    {ns : Namespace}, (∀ tok ∈ toks, Okay fs tok) →
    (∀ f g, (f ∈ ns.summary ∨ (isSummary f ∧ ∃ tok ∈ toks, tok.1 = f)) →
      (g ∈ ns.summary ∨ (isSummary g ∧ ∃ tok ∈ toks, tok.1 = g)) → f = g) →
    ∃ ns', toks.foldlM (parseOne fs) ns = some ns'
  | [], ns, _, _ => ⟨ns, rfl⟩
  | tok :: toks, ns, hok, hs => by
    obtain ⟨n1, h1⟩ := parseOne_ok (ns := ns) (hok tok List.mem_cons_self)
      (fun hsum f hf => hs f tok.1 (.inl hf) (.inr ⟨hsum, tok, List.mem_cons_self, rfl⟩))
    obtain ⟨-, -, -, a4, -⟩ := parseOne_some h1
    have conv : ∀ f, (f ∈ n1.summary ∨ (isSummary f ∧ ∃ t ∈ toks, t.1 = f)) →
        (f ∈ ns.summary ∨ (isSummary f ∧ ∃ t ∈ tok :: toks, t.1 = f)) := by
      rintro f (hf | ⟨hsum, t, ht, he⟩)
      · rw [a4] at hf
        split_ifs at hf with hsum
        · rcases List.mem_cons.mp hf with rfl | hf
          · exact .inr ⟨hsum, tok, List.mem_cons_self, rfl⟩
          · exact .inl hf
        · exact .inl hf
      · exact .inr ⟨hsum, t, List.mem_cons_of_mem _ ht, he⟩
    obtain ⟨ns', h⟩ := parse_ok (toks := toks) (ns := n1)
      (fun t ht => hok t (List.mem_cons_of_mem _ ht))
      (fun f g hf hg => hs f g (conv f hf) (conv g hg))
    exact ⟨ns', by rw [List.foldlM_cons, h1]; exact h⟩

end Verif.Args
