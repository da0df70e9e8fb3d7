import Verif.Args.Info
import Verif.Args.SearcherProps

/-!
# C132: what the package says about its searchers
-/

namespace Verif.Args.Info

open Verif.Space (Dict)
open Verif.Space

/-- The searcher `name` is described by the file `f`. -/
def Describes (f : File) (name : String) : Prop := f.suffix = ".yaml" ∧ f.stem = name

theorem isYaml_iff (f : File) : f.isYaml = true ↔ f.suffix = ".yaml" := by
  simp [File.isYaml]

theorem strategy_iff (f : File) (a : String) :
    f.strategy = some a ↔ f.config.get? "strategy" = some (.str a) := by
  unfold File.strategy
  split
  · rename_i s h
    rw [h]
    simp
  · rename_i h
    refine ⟨fun e => by simp at e, fun e => absurd e (h a)⟩

/-- **C132, the searchers**: `get_searchers` lists, once for each file, the searchers there is a file
for, and nothing else. -/
theorem C132_searchers (fs : List File) (name : String) :
    (getSearchers fs).count name = fs.countP (fun f => decide (f.suffix = ".yaml" ∧ f.stem = name)) := by
  induction fs with
  | nil => rfl
  | cons f fs ih =>
    unfold getSearchers
    rw [List.countP_cons]
    by_cases hy : f.isYaml = true
    · rw [if_pos hy, List.count_cons, ih]
      simp [(isYaml_iff f).mp hy]
    · rw [if_neg hy, ih]
      have : ¬ f.suffix = ".yaml" := fun h => hy ((isYaml_iff f).mpr h)
      simp [this]

/-- **C132, the searchers can be run**: in whatever order the file system lists the files of the package,
the searchers listed are, without repetitions, those that `neps.run` accepts by name and runs. -/
theorem C132_searchers_run (text : String → String) (fs : List File) (hfs : fs.Perm (packageFiles text)) :
    (getSearchers fs).Nodup ∧
    ∀ (env : Env) (a : RunArgs) (space : SearchSpace) (name : String), name ∈ getSearchers fs →
      a.kwargs.keys.Nodup → a.searcher = .str name → spaceArg env a.space = some space →
      a.kwargs.get? "pipeline_space" = none → a.kwargs.get? "budget" = none →
      ∃ b cls, (name, cls) ∈ packageSearchers ∧ runArgs env a = some b ∧ b.name = .str name ∧ b.cls = cls := by
  have hall : ∀ fs : List File, (∀ f ∈ fs, f.suffix = ".yaml") → getSearchers fs = fs.map (·.stem) := by
    intro fs h
    induction fs with
    | nil => rfl
    | cons f fs ih =>
      unfold getSearchers
      rw [if_pos ((isYaml_iff f).mpr (h f (by simp))), ih (fun g hg => h g (by simp [hg]))]
      rfl
  have hy : ∀ f ∈ fs, f.suffix = ".yaml" := by
    intro f hf
    have := hfs.subset hf
    simp only [packageFiles, List.mem_map] at this
    obtain ⟨p, _, rfl⟩ := this
    rfl
  have hperm : (getSearchers fs).Perm (packageSearchers.map (·.1)) := by
    rw [hall fs hy, packageSearchers_names]
    refine (hfs.map _).trans ?_
    rw [show (packageFiles text).map (·.stem) = searcherNames from by
      simp [packageFiles, searcherNames, Dict.keys]]
  refine ⟨hperm.nodup_iff.mpr packageSearchers_unique, ?_⟩
  intro env a space name hn hk hs hsp h1 h2
  have := hperm.subset hn
  obtain ⟨⟨n, cls⟩, hmem, rfl⟩ := List.mem_map.mp this
  obtain ⟨b, file, r1, r2, r3, r4, r5, _⟩ := C38_named (env := env) hk hmem hs hsp h1 h2
  exact ⟨b, cls, hmem, r1, r5, r3⟩

theorem algorithmsLoop_spec (fs : List File) : ∀ seen : List String, seen.Nodup →
    (algorithmsLoop fs seen).Nodup ∧ ∀ a, a ∈ algorithmsLoop fs seen ↔
      a ∈ seen ∨ (a ≠ "" ∧ ∃ f ∈ fs, f.suffix = ".yaml" ∧ f.config.get? "strategy" = some (.str a)) := by
  induction fs with
  | nil => intro seen h; exact ⟨h, fun a => by simp [algorithmsLoop]⟩
  | cons f fs ih =>
    intro seen hs
    unfold algorithmsLoop
    by_cases hy : f.isYaml = true
    · rw [if_pos hy]
      have hy' := (isYaml_iff f).mp hy
      rcases hst : f.strategy with _ | s
      · simp only
        obtain ⟨i1, i2⟩ := ih seen hs
        refine ⟨i1, fun a => ?_⟩
        rw [i2]
        have : ∀ a, f.config.get? "strategy" ≠ some (.str a) := fun a h => by
          rw [(strategy_iff f a).mpr h] at hst
          simp at hst
        simp [this]
      · have hst' := (strategy_iff f s).mp hst
        simp only
        split
        · rename_i hn
          obtain ⟨i1, i2⟩ := ih (seen ++ [s])
            (List.nodup_append.mpr ⟨hs, by simp, fun x hx y hy => by
              simp only [List.mem_singleton] at hy; subst hy; rintro rfl; exact hn.2 hx⟩)
          refine ⟨i1, fun a => ?_⟩
          rw [i2]
          simp only [List.mem_append, List.mem_cons, List.not_mem_nil, or_false, exists_eq_or_imp, hst', hy',
            true_and, Option.some.injEq, Py.str.injEq]
          constructor
          · rintro ((h | rfl) | ⟨h, h'⟩)
            · exact .inl h
            · exact .inr ⟨hn.1, .inl rfl⟩
            · exact .inr ⟨h, .inr h'⟩
          · rintro (h | ⟨h, rfl | h'⟩)
            · exact .inl (.inl h)
            · exact .inl (.inr rfl)
            · exact .inr ⟨h, h'⟩
        · rename_i hn
          obtain ⟨i1, i2⟩ := ih seen hs
          refine ⟨i1, fun a => ?_⟩
          rw [i2]
          simp only [List.mem_cons, exists_eq_or_imp, hst', hy', true_and, Option.some.injEq, Py.str.injEq]
          constructor
          · rintro (h | ⟨h, h'⟩)
            · exact .inl h
            · exact .inr ⟨h, .inr h'⟩
          · rintro (h | ⟨h, rfl | h'⟩)
            · exact .inl h
            · left
              by_contra hc
              exact hn ⟨h, hc⟩
            · exact .inr ⟨h, h'⟩
    · rw [if_neg hy]
      obtain ⟨i1, i2⟩ := ih seen hs
      refine ⟨i1, fun a => ?_⟩
      rw [i2]
      have : ¬ f.suffix = ".yaml" := fun h => hy ((isYaml_iff f).mpr h)
      simp [this]

/-- **C132, the algorithms**: `get_available_algorithms` lists, without repetitions, the algorithms the
files name. -/
theorem C132_algorithms (fs : List File) :
    (getAvailableAlgorithms fs).Nodup ∧ ∀ a, a ∈ getAvailableAlgorithms fs ↔
      a ≠ "" ∧ ∃ f ∈ fs, f.suffix = ".yaml" ∧ f.config.get? "strategy" = some (.str a) := by
  obtain ⟨h1, h2⟩ := algorithmsLoop_spec fs [] (by simp)
  exact ⟨h1, fun a => by rw [getAvailableAlgorithms, h2]; simp⟩

/-- **C132, the searchers of an algorithm**: `get_searcher_from_algorithm` lists the searchers whose file
names the algorithm, none twice unless two files have the same name, and nothing else. -/
theorem C132_from_algorithm (fs : List File) (a : String) :
    (getSearcherFromAlgorithm a fs).Sublist (fs.map (·.stem)) ∧
    ∀ name, name ∈ getSearcherFromAlgorithm a fs ↔
      ∃ f ∈ fs, Describes f name ∧ f.config.get? "strategy" = some (.str a) := by
  induction fs with
  | nil => simp [getSearcherFromAlgorithm]
  | cons f fs ih =>
    obtain ⟨i1, i2⟩ := ih
    unfold getSearcherFromAlgorithm
    split
    · rename_i h
      rw [isYaml_iff, strategy_iff] at h
      refine ⟨i1.cons_cons _, fun name => ?_⟩
      simp only [List.mem_cons, i2, exists_eq_or_imp]
      refine or_congr ⟨fun e => ⟨⟨h.1, e.symm⟩, h.2⟩, fun e => e.1.2.symm⟩ Iff.rfl
    · rename_i h
      rw [isYaml_iff, strategy_iff] at h
      refine ⟨i1.cons _, fun name => ?_⟩
      simp only [List.mem_cons, i2, exists_eq_or_imp]
      constructor
      · exact .inr
      · rintro (e | e)
        · exact absurd ⟨e.1.1, e.2⟩ h
        · exact e

/-- The file begins with what was asked for. -/
def Matches (searcher : String) (f : File) : Prop :=
  f.suffix = ".yaml" ∧ ∃ rest, f.stem.toList = searcher.toList ++ rest

theorem matches_iff (searcher : String) (f : File) :
    (f.isYaml = true ∧ searcher.toList.isPrefixOf f.stem.toList = true) ↔ Matches searcher f := by
  rw [isYaml_iff, List.isPrefixOf_iff_prefix]
  exact and_congr Iff.rfl ⟨fun ⟨r, h⟩ => ⟨r, h.symm⟩, fun ⟨r, h⟩ => ⟨r, h.symm⟩⟩

theorem kwargs_some (searcher : String) (fs : List File) (t : String)
    (h : getSearcherKwargs searcher fs = some t) : ∃ f ∈ fs, Matches searcher f ∧ f.text = t := by
  induction fs with
  | nil => simp [getSearcherKwargs] at h
  | cons f fs ih =>
    unfold getSearcherKwargs at h
    split at h
    · rename_i hm
      exact ⟨f, by simp, (matches_iff _ _).mp hm, by simpa using h⟩
    · obtain ⟨g, hg, r⟩ := ih h
      exact ⟨g, by simp [hg], r⟩

theorem kwargs_none (searcher : String) (fs : List File) :
    getSearcherKwargs searcher fs = none ↔ ∀ f ∈ fs, ¬ Matches searcher f := by
  induction fs with
  | nil => simp [getSearcherKwargs]
  | cons f fs ih =>
    unfold getSearcherKwargs
    split
    · rename_i hm
      rw [matches_iff] at hm
      refine ⟨fun e => by simp at e, fun e => absurd hm (e f (by simp))⟩
    · rename_i hm
      rw [matches_iff] at hm
      rw [ih]
      simp [hm]

/-- **C132, the settings of a searcher** (partial): `get_searcher_kwargs` gives the text of the searcher's
file, whatever the order of the files, provided that the name of no other file begins with the name of the
searcher; and it raises exactly if no name begins with what was asked for.  What is missing is the case of
a searcher whose name begins the name of another: see `C132_kwargs_fails`. -/
theorem C132_kwargs_partial (fs : List File) (searcher : String) :
    (∀ f ∈ fs, Describes f searcher →
      (∀ g ∈ fs, g.suffix = ".yaml" → g.stem ≠ searcher → ¬ ∃ rest, g.stem.toList = searcher.toList ++ rest) →
      (∀ g ∈ fs, Describes g searcher → g.text = f.text) →
      getSearcherKwargs searcher fs = some f.text) ∧
    (getSearcherKwargs searcher fs = none ↔
      ∀ f ∈ fs, f.suffix = ".yaml" → ¬ ∃ rest, f.stem.toList = searcher.toList ++ rest) := by
  constructor
  · intro f hf hd hother hsame
    rcases h : getSearcherKwargs searcher fs with _ | t
    · exact absurd ⟨hd.1, [], by rw [hd.2]; simp⟩ ((kwargs_none _ _).mp h f hf)
    · obtain ⟨g, hg, hm, rfl⟩ := kwargs_some _ _ _ h
      by_cases he : g.stem = searcher
      · rw [hsame g hg ⟨hm.1, he⟩]
      · exact absurd hm.2 (hother g hg hm.1 he)
  · rw [kwargs_none]
    exact forall₂_congr fun f _ => by simp only [Matches, not_and]

/-- The searchers of the package whose name begins no other. -/
def plainNames : List String :=
  ["random_search", "mobster", "asha_prior", "hyperband", "priorband_bo", "bayesian_optimization", "pibo",
    "successive_halving_prior", "ifbo"]

theorem mem_packageFiles (text : String → String) (f : File) (h : f ∈ packageFiles text) :
    f.suffix = ".yaml" ∧ f.stem ∈ searcherNames ∧ f.text = text f.stem := by
  simp only [packageFiles, List.mem_map] at h
  obtain ⟨p, hp, rfl⟩ := h
  exact ⟨rfl, List.mem_map.mpr ⟨p, hp, rfl⟩, rfl⟩

theorem plain_unique : ∀ a ∈ plainNames, a ∈ searcherNames ∧ ∀ b ∈ searcherNames, b ≠ a →
    a.toList.isPrefixOf b.toList = false := by decide +kernel

/-- **C132, the settings of the package's searchers**: for all but three searchers of the package
`get_searcher_kwargs` gives the text of the searcher's own file, in whatever order the files are listed. -/
theorem C132_kwargs_package_partial (text : String → String) (fs : List File)
    (hfs : fs.Perm (packageFiles text)) (name : String) (hn : name ∈ plainNames) :
    getSearcherKwargs name fs = some (text name) := by
  obtain ⟨hin, hun⟩ := plain_unique name hn
  have hfile : ∃ f ∈ fs, Describes f name ∧ f.text = text name := by
    obtain ⟨p, hp, rfl⟩ := List.mem_map.mp hin
    exact ⟨⟨p.1, ".yaml", text p.1, p.2⟩, hfs.symm.subset (List.mem_map.mpr ⟨p, hp, rfl⟩), ⟨rfl, rfl⟩, rfl⟩
  obtain ⟨f, hf, hd, ht⟩ := hfile
  rw [← ht]
  refine (C132_kwargs_partial fs name).1 f hf hd ?_ ?_
  · intro g hg _ hne hp
    obtain ⟨_, h2, _⟩ := mem_packageFiles text g (hfs.subset hg)
    have := hun _ h2 hne
    obtain ⟨r, hr⟩ := hp
    rw [hr, ← Bool.not_eq_true, List.isPrefixOf_iff_prefix] at this
    exact this (List.prefix_append _ _)
  · intro g hg hdg
    obtain ⟨_, _, h3⟩ := mem_packageFiles text g (hfs.subset hg)
    rw [h3, hdg.2, ht]

/-- **C132 fails** for the searchers `asha`, `priorband` and `successive_halving`: if the file system
lists the files in the wrong order, the user is shown the settings of another searcher. -/
theorem C132_kwargs_fails (text : String → String) :
    ∀ pair ∈ [("asha", "asha_prior"), ("priorband", "priorband_bo"),
        ("successive_halving", "successive_halving_prior")],
      ∃ fs : List File, fs.Perm (packageFiles text) ∧
        getSearcherKwargs pair.1 fs = some (text pair.2) := by
  have key : ∀ (a b : String) (f : File) (l r : List File), packageFiles text = l ++ f :: r →
      f.suffix = ".yaml" → f.stem = b → f.text = text b → a.toList.isPrefixOf b.toList = true →
      ∃ fs : List File, fs.Perm (packageFiles text) ∧ getSearcherKwargs a fs = some (text b) := by
    intro a b f l r hp h1 h2 h3 h4
    refine ⟨f :: (l ++ r), by rw [hp]; exact List.perm_middle.symm, ?_⟩
    unfold getSearcherKwargs
    rw [if_pos ⟨(isYaml_iff f).mpr h1, by rw [h2]; exact h4⟩, h3]
  have mem : ∀ b ∈ searcherNames, ∃ (f : File) (l r : List File), packageFiles text = l ++ f :: r ∧
      f.suffix = ".yaml" ∧ f.stem = b ∧ f.text = text b := by
    intro b hb
    obtain ⟨p, hp, rfl⟩ := List.mem_map.mp hb
    obtain ⟨l, r, h⟩ := List.append_of_mem
      (show (⟨p.1, ".yaml", text p.1, p.2⟩ : File) ∈ packageFiles text from List.mem_map.mpr ⟨p, hp, rfl⟩)
    exact ⟨_, l, r, h, rfl, rfl, rfl⟩
  have ok : ∀ pair ∈ [("asha", "asha_prior"), ("priorband", "priorband_bo"),
      ("successive_halving", "successive_halving_prior")],
      pair.2 ∈ searcherNames ∧ pair.1.toList.isPrefixOf pair.2.toList = true := by decide +kernel
  intro pair hpair
  obtain ⟨h1, h2⟩ := ok pair hpair
  obtain ⟨f, l, r, h, a, b, c⟩ := mem _ h1
  exact key pair.1 pair.2 f l r h a b c h2

/-- **C132 fails** for a name that is no searcher: asked for `""` or `"h"`, the package answers with the
settings of some searcher instead of the error it promises. -/
theorem C132_unknown_fails (text : String → String) (fs : List File) (hfs : fs.Perm (packageFiles text)) :
    "h" ∉ searcherNames ∧ getSearcherKwargs "h" fs = some (text "hyperband") ∧
    "" ∉ searcherNames ∧ getSearcherKwargs "" fs ≠ none := by
  have hin : "hyperband" ∈ searcherNames := by decide +kernel
  obtain ⟨p, hp, hpe⟩ := List.mem_map.mp hin
  have hf : (⟨p.1, ".yaml", text p.1, p.2⟩ : File) ∈ fs :=
    hfs.symm.subset (List.mem_map.mpr ⟨p, hp, rfl⟩)
  refine ⟨by decide +kernel, ?_, by decide +kernel, ?_⟩
  · rcases h : getSearcherKwargs "h" fs with _ | t
    · refine absurd ⟨rfl, ?_⟩ ((kwargs_none _ _).mp h _ hf)
      exact ⟨"yperband".toList, by
        show p.1.toList = _
        rw [hpe]
        decide +kernel⟩
    · obtain ⟨g, hg, hm, rfl⟩ := kwargs_some _ _ _ h
      obtain ⟨_, h2, h3⟩ := mem_packageFiles text g (hfs.subset hg)
      have only : ∀ b ∈ searcherNames, "h".toList.isPrefixOf b.toList = true → b = "hyperband" := by
        decide +kernel
      have := only _ h2 (by
        obtain ⟨r, hr⟩ := hm.2
        rw [hr]
        simp)
      rw [h3, this]
  · intro h
    exact (kwargs_none _ _).mp h _ hf ⟨rfl, _, by simp; rfl⟩

/-- Non-vacuity: a folder with two searchers of one algorithm, another file and a searcher that names no
algorithm. -/
example :
    let fs : List File :=
      [⟨"pibo", ".yaml", "p", [("strategy", .str "bayesian_optimization")]⟩, ⟨"__init__", ".py", "", []⟩,
        ⟨"bo", ".yaml", "b", [("strategy", .str "bayesian_optimization")]⟩, ⟨"mine", ".yaml", "m", []⟩]
    getSearchers fs = ["pibo", "bo", "mine"] ∧
      getAvailableAlgorithms fs = ["bayesian_optimization"] ∧
      getSearcherFromAlgorithm "bayesian_optimization" fs = ["pibo", "bo"] ∧
      getSearcherKwargs "bo" fs = some "b" ∧ getSearcherKwargs "asha" fs = none := by
  decide +kernel

end Verif.Args.Info
