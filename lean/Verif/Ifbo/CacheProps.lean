import Verif.Ifbo.CacheModel
import Mathlib.Data.List.Dedup
import Mathlib.Data.List.Nodup
import Mathlib.Data.List.Perm.Subperm

/-!
# C165: the surrogate models of ifBO that a process holds
-/

namespace Verif.Ifbo.Cache

/-! ## Lemmas -/

/-- The entries are loaded from their keys, and have different keys and identities. -/
structure Inv (m : Mem) : Prop where
  fits : ∀ e ∈ m.cache, (e.2.path, e.2.version) = e.1 ∧ e.2.serial < m.count
  inj : ∀ e ∈ m.cache, ∀ e' ∈ m.cache, e.2.serial = e'.2.serial → e = e'
  keys : (m.cache.map (·.1)).Nodup
  count : m.cache.length = m.count

theorem get_mem {m : Mem} {k : String × String} {f : Loaded} (h : m.get k = some f) :
    (k, f) ∈ m.cache := by
  unfold Mem.get at h
  rw [Option.map_eq_some_iff] at h
  obtain ⟨e, he, rfl⟩ := h
  have h1 := List.mem_of_find?_eq_some he
  have h2 : e.1 = k := by simpa using List.find?_some he
  rw [← h2]
  exact h1

theorem get_none {m : Mem} {k : String × String} (h : m.get k = none) : k ∉ m.cache.map (·.1) := by
  intro hk
  obtain ⟨e, he, rfl⟩ := List.mem_map.mp hk
  unfold Mem.get at h
  rw [Option.map_eq_none_iff, List.find?_eq_none] at h
  simpa using h e he

theorem surrogate_inv {m : Mem} (h : Inv m) (c : Call) : Inv (surrogate m c).2 := by
  unfold surrogate
  split
  · exact h
  · split
    · exact h
    · rename_i hg
      split
      · refine ⟨?_, ?_, ?_, by simp [h.count]⟩
        · intro e he
          rcases List.mem_cons.mp he with rfl | he
          · exact ⟨rfl, Nat.lt_succ_self _⟩
          · exact ⟨(h.fits e he).1, Nat.lt_succ_of_lt (h.fits e he).2⟩
        · intro e he e' he' hs
          rcases List.mem_cons.mp he with rfl | he <;> rcases List.mem_cons.mp he' with rfl | he'
          · rfl
          · have := (h.fits e' he').2
            simp only at hs
            omega
          · have := (h.fits e he).2
            simp only at hs
            omega
          · exact h.inj e he e' he' hs
        · simp only [List.map_cons, List.nodup_cons]
          exact ⟨get_none hg, h.keys⟩
      · exact h

/-- What was found is found again. -/
theorem surrogate_keeps {m : Mem} (c : Call) {k : String × String} {f : Loaded}
    (h : m.get k = some f) : (surrogate m c).2.get k = some f := by
  unfold surrogate
  split
  · exact h
  · split
    · exact h
    · rename_i hg
      split
      · have hne : c.key ≠ k := by
          rintro rfl
          rw [hg] at h
          exact absurd h (by simp)
        unfold Mem.get
        rw [List.find?_cons]
        simp only [hne, decide_false]
        exact h
      · exact h

theorem surrogate_some {m : Mem} {c : Call} {f : Loaded} (h : (surrogate m c).1 = some f) :
    (surrogate m c).2.get c.key = some f := by
  unfold surrogate at h ⊢
  split at h
  · exact absurd h (by simp)
  · rename_i hc
    rw [if_neg hc]
    split at h
    · rename_i g hg
      simp only [Option.some.injEq] at h
      subst h
      exact hg
    · rename_i hg
      simp only
      split at h
      · rename_i hl
        rw [if_pos hl]
        simp only [Option.some.injEq] at h
        subst h
        simp [Mem.get]
      · exact absurd h (by simp)

theorem calls_inv {m : Mem} (h : Inv m) (cs : List Call) : Inv (calls m cs).2 := by
  induction cs generalizing m with
  | nil => exact h
  | cons c cs ih => exact ih (surrogate_inv h c)

theorem calls_keeps (cs : List Call) {m : Mem} {k : String × String} {f : Loaded}
    (h : m.get k = some f) : (calls m cs).2.get k = some f := by
  induction cs generalizing m with
  | nil => exact h
  | cons c cs ih => exact ih (surrogate_keeps c h)

/-- Every model that was handed out is in the cache in the end. -/
theorem calls_some (cs : List Call) {m : Mem} {i : ℕ} {c : Call} {f : Loaded} (hc : cs[i]? = some c)
    (hf : (calls m cs).1[i]? = some (some f)) : (calls m cs).2.get c.key = some f := by
  induction cs generalizing m i with
  | nil => simp at hc
  | cons d cs ih =>
    cases i with
    | zero =>
      simp only [List.getElem?_cons_zero, Option.some.injEq] at hc
      subst hc
      simp only [calls, List.getElem?_cons_zero, Option.some.injEq] at hf
      exact calls_keeps cs (surrogate_some hf)
    | succ i =>
      simp only [List.getElem?_cons_succ] at hc
      simp only [calls, List.getElem?_cons_succ] at hf
      exact ih hc hf

theorem inv_start : Inv {} := ⟨by simp, by simp, by simp, rfl⟩

theorem calls_length (m : Mem) (cs : List Call) : (calls m cs).1.length = cs.length := by
  induction cs generalizing m with
  | nil => rfl
  | cons c cs ih => simp [calls, ih]

theorem calls_append (m : Mem) (cs ds : List Call) :
    calls m (cs ++ ds) =
      ((calls m cs).1 ++ (calls (calls m cs).2 ds).1, (calls (calls m cs).2 ds).2) := by
  induction cs generalizing m with
  | nil => rfl
  | cons c cs ih => simp [calls, ih]

theorem calls_cached (m : Mem) (cs : List Call) (k : String × String)
    (hk : k ∈ (calls m cs).2.cache.map (·.1)) : k ∈ m.cache.map (·.1) ∨ k ∈ cs.map Call.key := by
  induction cs generalizing m with
  | nil => exact .inl hk
  | cons c cs ih =>
    rcases ih _ hk with h | h
    · unfold surrogate at h
      split at h
      · exact .inl h
      · split at h
        · exact .inl h
        · split at h
          · simp only [List.map_cons, List.mem_cons] at h
            rcases h with rfl | h
            · exact .inr (by simp)
            · exact .inl h
          · exact .inl h
    · exact .inr (List.mem_cons_of_mem _ h)

/-- A key without successful call is not in the cache. -/
theorem calls_not_found (cs : List Call) {m : Mem} {k : String × String} (h : m.get k = none)
    (hn : ∀ (i : ℕ) (c : Call), cs[i]? = some c → c.key = k → (calls m cs).1[i]? = some none) :
    (calls m cs).2.get k = none := by
  induction cs generalizing m with
  | nil => exact h
  | cons c cs ih =>
    apply ih
    · by_cases hk : c.key = k
      · have := hn 0 c (by simp) hk
        simp only [calls, List.getElem?_cons_zero, Option.some.injEq] at this
        unfold surrogate at this ⊢
        split
        · exact h
        · rename_i hc
          rw [if_neg hc, hk, h] at this
          rw [hk, h]
          simp only at this ⊢
          split
          · rename_i hl
            simp [hl] at this
          · exact h
      · unfold surrogate
        split
        · exact h
        · split
          · exact h
          · split
            · unfold Mem.get at h ⊢
              rw [List.find?_cons]
              simp only [hk, decide_false]
              exact h
            · exact h
    · intro i d hd hk
      exact hn (i + 1) d (by simpa using hd) hk

/-! ## C165 -/

/-- **C165, the right model**: a call gets a model that was loaded from the directory and in the version it asks
for, whatever was called before in the process. -/
theorem C165_right_model (cs : List Call) (i : ℕ) (c : Call) (f : Loaded) (hc : cs[i]? = some c)
    (hf : (calls {} cs).1[i]? = some (some f)) : f.path = c.path ∧ f.version = c.version := by
  have h := ((calls_inv inv_start cs).fits _ (get_mem (calls_some cs hc hf))).1
  simp only [Call.key, Prod.mk.injEq] at h
  exact h

/-- **C165, one object**: two calls get the same object if and only if they ask for the same directory and
version. -/
theorem C165_same_object (cs : List Call) (i j : ℕ) (c d : Call) (f g : Loaded)
    (hc : cs[i]? = some c) (hd : cs[j]? = some d) (hf : (calls {} cs).1[i]? = some (some f))
    (hg : (calls {} cs).1[j]? = some (some g)) :
    f.serial = g.serial ↔ c.path = d.path ∧ c.version = d.version := by
  have h1 := calls_some cs hc hf
  have h2 := calls_some cs hd hg
  constructor
  · intro hs
    have := (calls_inv inv_start cs).inj _ (get_mem h1) _ (get_mem h2) hs
    simp only [Prod.mk.injEq, Call.key] at this
    exact this.1
  · rintro ⟨hp, hv⟩
    have hk : c.key = d.key := by simp [Call.key, hp, hv]
    rw [hk, h2] at h1
    simp only [Option.some.injEq] at h1
    rw [h1]

/-- **C165, loaded once**: a process loads at most one model for each directory and version it asks for. -/
theorem C165_loaded_once (cs : List Call) : (calls {} cs).2.count ≤ (cs.map Call.key).dedup.length := by
  have h := calls_inv inv_start cs
  rw [← h.count, ← List.length_map (f := fun e : (String × String) × Loaded => e.1)]
  refine (List.subperm_of_subset h.keys ?_).length_le
  intro k hk
  rcases calls_cached _ _ _ hk with h' | h'
  · simp at h'
  · exact List.mem_dedup.mpr h'

/-- **C165, recovery**: after any calls, failed ones included, a call succeeds if the files are there and can be
loaded. -/
theorem C165_recovers (cs : List Call) (c : Call) (hr : c.ready = true) (hl : c.loads = true) :
    ∃ f, (calls {} (cs ++ [c])).1[cs.length]? = some (some f) := by
  rw [calls_append]
  rw [List.getElem?_append_right (by simp [calls_length])]
  rw [calls_length, Nat.sub_self]
  simp only [calls, List.getElem?_cons_zero, Option.some.injEq]
  unfold surrogate
  simp only [hr, hl, Bool.not_true, Bool.and_false, Bool.false_eq_true, if_false, if_true]
  split
  · exact ⟨_, rfl⟩
  · exact ⟨_, rfl⟩

/-- **C165, device (partial)**: the first call that gets a model for its directory and version gets it on its
device.

Missing: later calls (`C165_device_fails`). -/
theorem C165_device_partial (cs : List Call) (c : Call) (f : Loaded)
    (hf : (calls {} (cs ++ [c])).1[cs.length]? = some (some f))
    (hn : ∀ (i : ℕ) (d : Call), cs[i]? = some d → d.path = c.path → d.version = c.version →
      (calls {} cs).1[i]? = some none) : f.device = c.device := by
  have hg : (calls {} cs).2.get c.key = none := by
    apply calls_not_found cs rfl
    intro i d hd hk
    simp only [Call.key, Prod.mk.injEq] at hk
    exact hn i d hd hk.1 hk.2
  rw [calls_append, List.getElem?_append_right (by simp [calls_length]), calls_length, Nat.sub_self] at hf
  simp only [calls, List.getElem?_cons_zero, Option.some.injEq] at hf
  unfold surrogate at hf
  split at hf
  · exact absurd hf (by simp)
  · rw [hg] at hf
    simp only at hf
    split at hf
    · simp only [Option.some.injEq] at hf
      rw [← hf]
    · exact absurd hf (by simp)

/-- **C165 fails** for the device: once a model was handed out, every call for the same directory and version
that gets a model gets it on the device of the first one, whichever device it asks for. -/
theorem C165_device_fails (cs : List Call) (i j : ℕ) (c d : Call) (f g : Loaded)
    (hc : cs[i]? = some c) (hd : cs[j]? = some d) (hf : (calls {} cs).1[i]? = some (some f))
    (hg : (calls {} cs).1[j]? = some (some g)) (hp : c.path = d.path) (hv : c.version = d.version)
    (hdev : d.device ≠ f.device) : g.device ≠ d.device := by
  have h1 := calls_some cs hc hf
  have h2 := calls_some cs hd hg
  have hk : c.key = d.key := by simp [Call.key, hp, hv]
  rw [hk, h2] at h1
  simp only [Option.some.injEq] at h1
  rw [h1]
  exact fun h => hdev h.symm

/-- **C165 fails** without the files: with the default directory a call raises when the files are neither there nor
can be downloaded, although the process holds the model. -/
theorem C165_held_fails (cs : List Call) (c : Call) (ht : c.target = none) (hr : c.ready = false) :
    (calls {} (cs ++ [c])).1[cs.length]? = some none := by
  rw [calls_append, List.getElem?_append_right (by simp [calls_length]), calls_length, Nat.sub_self]
  simp [calls, surrogate, ht, hr]

/-- A run on the CPU, then one on a GPU, one from another working directory, and one after the files are gone. -/
def demoCalls : List Call :=
  [⟨none, "0.0.1", some "cpu", "/a", false, true⟩, ⟨none, "0.0.1", some "cpu", "/a", true, true⟩,
    ⟨none, "0.0.1", some "cuda", "/a", true, true⟩, ⟨none, "0.0.1", some "cuda", "/b", true, true⟩,
    ⟨none, "0.0.1", some "cpu", "/a", false, true⟩]

/-- The hypotheses of all theorems are met: the second and third call get one object, on the CPU; the fourth
gets another one; the first and the last fail. -/
example : (calls {} demoCalls).1 =
    [none, some ⟨0, "/a/.model", "0.0.1", some "cpu"⟩, some ⟨0, "/a/.model", "0.0.1", some "cpu"⟩,
      some ⟨1, "/b/.model", "0.0.1", some "cuda"⟩, none] ∧ (calls {} demoCalls).2.count = 2 := by
  decide +kernel

end Verif.Ifbo.Cache
