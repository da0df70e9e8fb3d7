import Verif.Repr.Props
import Verif.Arch.TopoLemmas

/-!
# The graph of an architecture over the topologies of the package (C124)
-/

namespace Verif.Repr

open Verif.Gram (Str Func Forest treeText)
open Verif.Arch (Graph Builtin)

/-- Every node but the last has an outgoing edge. -/
theorem left_builtin {n : ℕ} {edges : List (ℕ × ℕ)} (h : Builtin n edges) (u : ℕ) (h1 : 1 ≤ u)
    (h2 : u < n) : ∃ v, (u, v) ∈ edges := by
  cases h with
  | sequential n => exact ⟨u + 1, (Arch.mem_sequential _ _).2 ⟨h1, by simp only; omega, rfl⟩⟩
  | dense n =>
    exact ⟨u + 1, (Arch.mem_dense _ _).2 ⟨h1, by simp only; omega, by simp only; omega⟩⟩
  | residual =>
    have : u = 1 ∨ u = 2 := by omega
    rcases this with rfl | rfl
    · exact ⟨2, by decide⟩
    · exact ⟨3, by decide⟩
  | diamond =>
    have : u = 1 ∨ u = 2 ∨ u = 3 := by omega
    rcases this with rfl | rfl | rfl
    · exact ⟨2, by decide⟩
    · exact ⟨4, by decide⟩
    · exact ⟨4, by decide⟩
  | diamondMid =>
    have : u = 1 ∨ u = 2 ∨ u = 3 := by omega
    rcases this with rfl | rfl | rfl
    · exact ⟨2, by decide⟩
    · exact ⟨4, by decide⟩
    · exact ⟨4, by decide⟩

/-- The topologies of the package meet what `C124_graph_partial` asks of topologies: sequences of any
number of edges, `Residual`, `Diamond`, `DiamondMid`, and dense graphs of any number of nodes. -/
theorem C124_builtin {n : ℕ} {edges : List (ℕ × ℕ)} (h : Builtin n edges) : Sensible edges := by
  obtain ⟨hn, hb⟩ := Arch.breadthFirst_builtin h
  have hs := Arch.sorted_builtin h
  have hup := hb.up
  have hmem1 : ∀ a, a ∈ edges.map (·.1) ↔ ∃ b, (a, b) ∈ edges := by simp
  have hmem2 : ∀ b, b ∈ edges.map (·.2) ↔ ∃ a, (a, b) ∈ edges := by simp
  refine ⟨Arch.nodup_builtin h, ⟨1, ?_, ?_⟩, ⟨n, ?_, ?_⟩, ⟨id, fun e he => (hup e he).2.1⟩, ?_⟩
  · refine ⟨(hmem1 1).2 (left_builtin h 1 (by omega) (by omega)), fun hc => ?_⟩
    obtain ⟨a, ha⟩ := (hmem2 1).1 hc
    have := hup _ ha
    simp only at this
    omega
  · rintro a ⟨ha, hna⟩
    obtain ⟨b, hab⟩ := (hmem1 a).1 ha
    have := hup _ hab
    simp only at this
    by_contra hne
    exact hna ((hmem2 a).2 (hb.met a (by omega) (by omega)))
  · refine ⟨(hmem2 n).2 (hb.met n (by omega) (by omega)), fun hc => ?_⟩
    obtain ⟨b, hb'⟩ := (hmem1 n).1 hc
    have := hup _ hb'
    simp only at this
    omega
  · rintro b ⟨hb', hnb⟩
    obtain ⟨a, hab⟩ := (hmem2 b).1 hb'
    have := hup _ hab
    simp only at this
    by_contra hne
    exact hnb ((hmem1 b).2 (left_builtin h b (by omega) (by omega)))
  · refine hs.imp_of_mem ?_
    intro e e' he he' hlt
    have := hup _ he
    omega

end Verif.Repr
