import Verif.Seed.FilesLemmas

/-!
# C154: the random number generators are stored and restored exactly
-/

namespace Neps.Seed.Files

/-! ## Specification -/

/-- The words of the Mersenne twisters have 32 bits. -/
def Gens.Words (g : Gens) : Prop :=
  (∀ w ∈ g.py.words, 0 ≤ w ∧ w < 2 ^ 32) ∧ ∀ k ∈ g.np.keys, k < 2 ^ 32

/-- The number of CUDA devices. -/
def Gens.devices (g : Gens) : ℕ := (g.cuda.getD []).length

/-- Two processes have the same generators on the CPU. -/
def SameCpu (g g' : Gens) : Prop := g.py = g'.py ∧ g.np = g'.np ∧ g.torch = g'.torch

/-! ## Properties -/

/-- **C154**: the generators of every process can be stored, whatever is in the directory, and what is
read is what was stored: all of python, numpy and torch, and the CUDA devices, if the process has
some. -/
theorem C154_stored (g : Gens) (hg : g.Words) (d : Dir) :
    ∃ d', write (capture g) d = some d' ∧
      read d' = some { capture g with cuda := g.cuda.or d.cuda } := by
  obtain ⟨bs, hbs⟩ := mapM_toInt64 g.py.words hg.1
  have h1 := chunks_words _ _ hbs
  have h2 := chunks_keys g.np.keys hg.2
  have hbs' : (capture g).py.words.mapM toInt64 = some bs := hbs
  refine ⟨_, by rw [write, writes, hbs', Option.map_some, Option.map_some], ?_⟩
  cases hc : g.cuda <;> simp only [capture, hc, List.foldl_append, List.foldl_cons, List.foldl_nil,
    read, h1, h2, Option.none_or, Option.some_or]

/-- **C154** on machines with the same number of CUDA devices, if no other machine has stored its
devices before: whatever has happened to the generators of the process that reads, all of them are
again as they were. Missing: other numbers of devices, see `C154_devices_fails`, and machines without
CUDA between machines with CUDA, see `C154_stale_fails`. -/
theorem C154_restored_partial (g g' : Gens) (hg : g.Words) (d : Dir)
    (hdev : g.cuda.map List.length = g'.cuda.map List.length)
    (hd : g.cuda = none → d.cuda = none) :
    ∃ d' s, write (capture g) d = some d' ∧ read d' = some s ∧ setGlobal s g' = some g := by
  obtain ⟨d', h1, h2⟩ := C154_stored g hg d
  refine ⟨d', _, h1, h2, ?_⟩
  cases hc : g.cuda with
  | none =>
    cases hc' : g'.cuda with
    | some x => simp [hc, hc'] at hdev
    | none =>
      cases g
      cases g'
      simp_all [setGlobal, capture]
  | some ss =>
    cases hc' : g'.cuda with
    | none => simp [hc, hc'] at hdev
    | some ds =>
      rw [hc, hc', Option.map_some, Option.map_some, Option.some.injEq] at hdev
      have : setCuda ss ds = some ss := by
        rw [setCuda, if_pos (by omega), List.drop_eq_nil_of_le (by omega), List.append_nil]
      cases g
      cases g'
      simp_all [setGlobal, capture]

/-- **C154** on all machines: restoring raises exactly if the process has CUDA and fewer devices than
were stored; otherwise python, numpy and torch on the CPU continue as they were stored, and so do the
first CUDA devices; the others stay as they are. -/
theorem C154_cpu (g g' : Gens) (hg : g.Words) (d : Dir) :
    ∃ d' s, write (capture g) d = some d' ∧ read d' = some s ∧
      (setGlobal s g' = none ↔ ∃ ss ds, s.cuda = some ss ∧ g'.cuda = some ds ∧
        ds.length < ss.length) ∧
      ∀ r, setGlobal s g' = some r → SameCpu r g ∧ r.devices = g'.devices ∧
        ∀ i : ℕ, (r.cuda.getD [])[i]? = if i < r.devices ∧ i < (s.cuda.getD []).length
          then (s.cuda.getD [])[i]? else (g'.cuda.getD [])[i]? := by
  obtain ⟨d', h1, h2⟩ := C154_stored g hg d
  refine ⟨d', _, h1, h2, ?_⟩
  cases hs : g.cuda.or d.cuda with
  | none =>
    refine ⟨by simp [setGlobal], fun r hr => ?_⟩
    simp only [setGlobal, Option.some.injEq] at hr
    subst hr
    exact ⟨⟨rfl, rfl, rfl⟩, rfl, by simp⟩
  | some ss =>
    cases hc : g'.cuda with
    | none =>
      refine ⟨by simp [setGlobal, hc], fun r hr => ?_⟩
      simp only [setGlobal, hc, Option.some.injEq] at hr
      subst hr
      exact ⟨⟨rfl, rfl, rfl⟩, by simp [Gens.devices, hc], by simp [Gens.devices]⟩
    | some ds =>
      by_cases hl : ss.length ≤ ds.length
      · have e : setCuda ss ds = some (ss ++ ds.drop ss.length) := if_pos hl
        refine ⟨by simp [setGlobal, hc, e]; omega, fun r hr => ?_⟩
        simp only [setGlobal, hc, e, Option.map_some, Option.some.injEq] at hr
        subst hr
        refine ⟨⟨rfl, rfl, rfl⟩, ?_, fun i => ?_⟩
        · simp only [Gens.devices, hc, Option.getD_some, List.length_append, List.length_drop]
          omega
        · simp only [Gens.devices, Option.getD_some, List.length_append, List.length_drop]
          by_cases hi : i < ss.length
          · rw [if_pos ⟨by omega, hi⟩, List.getElem?_append_left hi]
          · rw [if_neg (by omega), List.getElem?_append_right (by omega), List.getElem?_drop]
            congr 1
            omega
      · have e : setCuda ss ds = none := if_neg hl
        refine ⟨by simp [setGlobal, hc, e]; omega, fun r hr => ?_⟩
        simp [setGlobal, hc, e] at hr

/-- **C154**: two snapshots are equal exactly if all their generators are, for snapshots with the same
number of CUDA devices. Missing: other numbers of devices, see `C154_equal_fails`. -/
theorem C154_equal_partial (a b : Snap)
    (h : ∀ x y, a.cuda = some x → b.cuda = some y → x.length = y.length) :
    eq a b = true ↔ a = b := by
  obtain ⟨apy, ⟨ak, aks, ap, ah, ag⟩, at', ac⟩ := a
  obtain ⟨bpy, ⟨bk, bks, bp, bh, bg⟩, bt, bc⟩ := b
  have key : ∀ x y : List (List ℕ), x.length = y.length →
      ((x.zip y).all (fun p => decide (p.1 = p.2)) = true ↔ x = y) := by
    intro x
    induction x with
    | nil => intro y hy; cases y <;> simp_all
    | cons u x ih =>
      intro y hy
      cases y with
      | nil => simp at hy
      | cons v y =>
        simp only [List.length_cons, Nat.succ.injEq] at hy
        rw [List.zip_cons_cons, List.all_cons, Bool.and_eq_true, ih y hy]
        simp
  simp only at h
  cases ac with
  | none => cases bc <;> cases at' <;> cases bt <;> simp [eq] <;> tauto
  | some x =>
    cases bc with
    | none => cases at' <;> cases bt <;> simp [eq]
    | some y =>
      have k := key x y (h x y rfl rfl)
      have k' : (∀ p ∈ x.zip y, p.1 = p.2) ↔ x = y := by simpa using k
      cases at' <;> cases bt <;> simp [eq, ← k'] <;> tauto

/-- **C154** for a process that is killed while it stores: the directory can be read, and each of the
files holds the old or the new state. Missing: the states of python and of numpy are in two files each,
and may be a mixture, see `C154_killed_fails`. -/
theorem C154_killed_partial (g old : Gens) (hg : g.Words) (ho : old.Words) (k : ℕ) (d₀ d : Dir)
    (hd : write (capture old) d₀ = some d) :
    ∃ d' s, writeUpto k (capture g) d = some d' ∧ read d' = some s ∧
      (s.py.words = old.py.words ∨ s.py.words = g.py.words) ∧
      (s.np.keys = old.np.keys ∨ s.np.keys = g.np.keys) ∧
      ((s.py.gauss = old.py.gauss ∧ s.np.pos = old.np.pos ∧ s.np.gauss = old.np.gauss) ∨
        (s.py.gauss = g.py.gauss ∧ s.np.pos = g.np.pos ∧ s.np.gauss = g.np.gauss)) ∧
      (s.torch = some old.torch ∨ s.torch = some g.torch) ∧
      (s.cuda = old.cuda.or d₀.cuda ∨ s.cuda = g.cuda) := by
  obtain ⟨bo, hbo⟩ := mapM_toInt64 old.py.words ho.1
  have o1 := chunks_words _ _ hbo
  have o2 := chunks_keys old.np.keys ho.2
  obtain ⟨bs, hbs⟩ := mapM_toInt64 g.py.words hg.1
  have h1 := chunks_words _ _ hbs
  have h2 := chunks_keys g.np.keys hg.2
  have hd' : d = ⟨some bo.flatten, some (old.np.keys.flatMap (toBytes 4)),
      some ⟨old.np.kind, old.np.pos, old.np.hasGauss, old.np.gauss, old.py.version, old.py.gauss⟩,
      some old.torch, old.cuda.or d₀.cuda⟩ := by
    have hbo' : (capture old).py.words.mapM toInt64 = some bo := hbo
    rw [write, writes, hbo', Option.map_some, Option.map_some, Option.some.injEq] at hd
    subst hd
    cases hc : old.cuda <;> simp [capture, hc]
  have hbs' : (capture g).py.words.mapM toInt64 = some bs := hbs
  subst hd'
  rw [writeUpto, writes, hbs', Option.map_some, Option.map_some]
  cases hc : g.cuda with
  | none =>
    simp only [capture, hc, List.append_nil, List.cons_append, List.nil_append]
    rcases k with _ | _ | _ | _ | k <;>
      simp only [List.take_succ_cons, List.take_nil, List.take_zero, List.foldl_cons,
        List.foldl_nil] <;>
      refine ⟨_, _, rfl, rfl, ?_⟩ <;> simp only [h1, h2, o1, o2] <;> tauto
  | some cs =>
    simp only [capture, hc, List.cons_append, List.nil_append]
    rcases k with _ | _ | _ | _ | _ | k <;>
      simp only [List.take_succ_cons, List.take_nil, List.take_zero, List.foldl_cons,
        List.foldl_nil] <;>
      refine ⟨_, _, rfl, rfl, ?_⟩ <;> simp only [h1, h2, o1, o2] <;> tauto

/-! ## Examples and what fails -/

/-- Generators of a process; the arguments are a word, the next Gaussian number of python, and the
states of the CUDA devices. -/
def gens (w : ℕ) (gauss : Option ℚ) (cuda : Option (List (List ℕ))) : Gens :=
  ⟨⟨3, [w, 4294967295, 624], gauss⟩, ⟨"MT19937", [w, 4294967295], 624, 0, 0⟩, [w, 7], cuda⟩

/-- Hypotheses of `C154_stored`, `C154_restored_partial`, `C154_cpu` and `C154_killed_partial`. -/
example : (gens 5 none (some [[1], [2]])).Words ∧
    (gens 5 none (some [[1], [2]])).cuda.map List.length =
      (gens 9 (some 1) (some [[8], [9]])).cuda.map List.length ∧
    ∃ d, write (capture (gens 9 (some 1) none)) {} = some d := by
  refine ⟨⟨by decide +kernel, by decide +kernel⟩, rfl, ?_⟩
  obtain ⟨d, h, -⟩ := C154_stored (gens 9 (some 1) none) ⟨by decide +kernel, by decide +kernel⟩ {}
  exact ⟨d, h⟩

/-- Hypotheses of `C154_equal_partial`: equal and unequal snapshots with two devices. -/
example : eq (capture (gens 5 none (some [[1], [2]]))) (capture (gens 5 none (some [[1], [2]]))) = true ∧
    eq (capture (gens 5 none (some [[1], [2]]))) (capture (gens 5 none (some [[1], [3]]))) = false := by
  decide +kernel

/-- **C154 fails for machines with fewer CUDA devices**: after a process with two devices has stored its
generators, a process with one device cannot restore them, so that it cannot ask for a
configuration. -/
theorem C154_devices_fails :
    ∃ d s, write (capture (gens 5 none (some [[1], [2]]))) {} = some d ∧ read d = some s ∧
      setGlobal s (gens 6 none (some [[3]])) = none := by
  obtain ⟨d, h1, h2⟩ := C154_stored (gens 5 none (some [[1], [2]]))
    ⟨by decide +kernel, by decide +kernel⟩ {}
  exact ⟨d, _, h1, h2, by decide +kernel⟩

/-- **C154 fails for machines with and without CUDA**: the file of the devices is kept when a process
without CUDA stores its generators, so that afterwards a process with CUDA has the latest state of the
CPU and an old state of its device. -/
theorem C154_stale_fails :
    ∃ d d' s, write (capture (gens 5 none (some [[1]]))) {} = some d ∧
      write (capture (gens 6 none none)) d = some d' ∧ read d' = some s ∧
      setGlobal s (gens 5 none (some [[2]])) = some (gens 6 none (some [[1]])) := by
  obtain ⟨d, h1, h2⟩ := C154_stored (gens 5 none (some [[1]])) ⟨by decide +kernel, by decide +kernel⟩ {}
  obtain ⟨d', h3, h4⟩ := C154_stored (gens 6 none none) ⟨by decide +kernel, by decide +kernel⟩ d
  have hd : d.cuda = some [[1]] := by
    have := congrArg (fun x => x.map Snap.cuda) h2
    unfold read at this
    cases hp : d.py <;> cases hn : d.np <;> cases hi : d.info <;> simp [hp, hn, hi] at this
    simpa [capture, gens] using this
  rw [hd] at h4
  exact ⟨d, d', _, h1, h3, h4, by decide +kernel⟩

/-- **C154 fails if a process is killed between two files**: the words of python's generator are the
new ones and its next Gaussian number is the old one, a state no process was ever in. -/
theorem C154_killed_fails :
    ∃ d d' s, write (capture (gens 5 (some 1) none)) {} = some d ∧
      writeUpto 1 (capture (gens 6 none none)) d = some d' ∧ read d' = some s ∧
      s.py = ⟨3, [6, 4294967295, 624], some 1⟩ := by
  have h : ((write (capture (gens 5 (some 1) none)) {}).bind fun d =>
      (writeUpto 1 (capture (gens 6 none none)) d).bind fun d' => (read d').map Snap.py) =
      some ⟨3, [6, 4294967295, 624], some 1⟩ := by decide +kernel
  rw [Option.bind_eq_some_iff] at h
  obtain ⟨d, h1, h⟩ := h
  rw [Option.bind_eq_some_iff] at h
  obtain ⟨d', h2, h⟩ := h
  obtain ⟨s, h3, h4⟩ := Option.map_eq_some_iff.mp h
  exact ⟨d, d', s, h1, h2, h3, h4⟩

/-- **C154 fails for the comparison of snapshots of different machines**: snapshots with one and with
two devices are equal. -/
theorem C154_equal_fails :
    ∃ a b, eq (capture a) (capture b) = true ∧ a.cuda = some [[1]] ∧ b.cuda = some [[1], [2]] :=
  ⟨gens 5 none (some [[1]]), gens 5 none (some [[1], [2]]), by decide +kernel, rfl, rfl⟩

end Neps.Seed.Files
