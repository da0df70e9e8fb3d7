import Verif.Create.Schedule
import Verif.Create.InfoLemmas

/-!
# Properties of creating or loading a run

C46: a run directory cannot be continued with a different optimizer configuration.
-/

namespace Neps.Create

variable {V : Type} {F : Format V}

/-! ### One call that nobody disturbs -/

/-- **C46.** A run directory whose optimizer info is `v` (and whose other resources are each
complete or absent) is continued exactly by calls with the same info. Such a call returns; it uses
the stored value of every resource that is there and leaves it as it is, and it stores its own
value for every resource that is absent. Any other call raises and changes no file. -/
theorem C46_existing_run (W : World V) (p : Nat) (g : Res → V) (v : V)
    (hroot : W.root = true) (hq : W.Quiet) (hp : W.Free p) (hv : W.Has .info v)
    (ho : ∀ r, r ≠ .info →
      (∃ w, W.Has r w) ∨ (W.Lacks r ∧ ∃ w, F.roundtrip r (g r) = some w)) :
    (F.same v (g .info) = true →
      (call F W p g).Returned p ∧
      (∀ r w, W.Has r w →
        ((call F W p g).proc p).got r = some w ∧ (call F W p g).Has r w) ∧
      (∀ r, W.Lacks r →
        ((call F W p g).proc p).got r = some (g r) ∧
        ∃ w, F.roundtrip r (g r) = some w ∧ (call F W p g).Has r w)) ∧
    (F.same v (g .info) = false →
      (call F W p g).Raised p .mismatch ∧ (call F W p g).cell = W.cell ∧
        (call F W p g).root = W.root) := by
  have hd : (W.cell .info).data = .whole v := by rw [hv]
  rw [call_existing hp hroot, hd]
  constructor
  · intro hs
    simp only [hs, if_true]
    generalize hW1 : ({ W with
      root := true, proc := set W.proc p ⟨g, .create .info, fun _ => none⟩ } : World V) = W1
    have hc : ∀ r, W1.cell r = W.cell r := by intro r; rw [← hW1]
    have hP : W1.proc p = ⟨g, .create .info, fun _ => none⟩ := by rw [← hW1]; simp
    obtain ⟨n, hn, hret, -, -, hgot⟩ := finish (F := F) (p := p) (W := W1) (by rw [hP])
      (by rw [← hW1]; exact hq)
      (by
        intro r
        unfold World.Has World.Lacks
        rw [hc r, hP]
        by_cases hr : r = .info
        · subst hr; exact Or.inl ⟨v, hv⟩
        · exact ho r hr)
    have hend : steps F p 12 W1 = steps F p n W1 := by
      rw [show 12 = n + (12 - n) by omega, steps_add, steps_stopped (Or.inl hret)]
    rw [hend]
    refine ⟨hret, fun r w hw => ?_, fun r hl => ?_⟩
    · obtain ⟨x, hx, hres, -⟩ := hgot r
      obtain ⟨rfl, h⟩ := hres w (by unfold World.Has; rw [hc r]; exact hw)
      exact ⟨hx, h⟩
    · obtain ⟨x, hx, -, hres⟩ := hgot r
      rw [hP] at hres
      obtain ⟨rfl, h⟩ := hres (by unfold World.Lacks; rw [hc r]; exact hl)
      exact ⟨hx, h⟩
  · intro hs
    simp only [hs, Bool.false_eq_true, if_false]
    rw [steps_stopped (Or.inr ⟨.mismatch, by simp⟩)]
    exact ⟨by simp [World.Raised], rfl, hroot.symm⟩

/-- **C46.** If the root directory does not exist, or `overwrite_working_directory` deleted it, a
call whose values can be written returns, uses its own values and stores them. -/
theorem C46_new_run (W : World V) (p : Nat) (g : Res → V) (hq : W.Quiet) (hp : W.Free p)
    (hw : ∀ r, ∃ w, F.roundtrip r (g r) = some w) (W' : World V)
    (hW' : W' = overwrite W ∨ (W' = W ∧ W.root = false ∧ ∀ r, W.Lacks r)) :
    (call F W' p g).Returned p ∧ ∀ r, ((call F W' p g).proc p).got r = some (g r) ∧
      ∃ w, F.roundtrip r (g r) = some w ∧ (call F W' p g).Has r w := by
  have hroot : W'.root = false := by
    rcases hW' with rfl | ⟨rfl, h, -⟩
    · rfl
    · exact h
  have hl : ∀ r, W'.Lacks r := by
    rcases hW' with rfl | ⟨rfl, -, h⟩
    · intro r; rfl
    · exact h
  have hq' : W'.Quiet := by
    rcases hW' with rfl | ⟨rfl, -⟩
    · exact hq
    · exact hq
  have hp' : W'.Free p := by
    rcases hW' with rfl | ⟨rfl, -⟩
    · exact hp
    · exact hp
  rw [call_two hp', hroot]
  simp only [Bool.false_eq_true, if_false]
  generalize hW1 : ({ W' with
    root := true, proc := set W'.proc p ⟨g, .create .info, fun _ => none⟩ } : World V) = W1
  have hc : ∀ r, W1.cell r = W'.cell r := by intro r; rw [← hW1]
  have hP : W1.proc p = ⟨g, .create .info, fun _ => none⟩ := by rw [← hW1]; simp
  obtain ⟨n, hn, hret, -, -, hgot⟩ := finish (F := F) (p := p) (W := W1) (by rw [hP])
    (by rw [← hW1]; exact hq')
    (by
      intro r
      unfold World.Has World.Lacks
      rw [hc r, hP]
      exact Or.inr ⟨hl r, hw r⟩)
  have hend : steps F p 13 W1 = steps F p n W1 := by
    rw [show 13 = n + (13 - n) by omega, steps_add, steps_stopped (Or.inl hret)]
  rw [hend]
  refine ⟨hret, fun r => ?_⟩
  obtain ⟨x, hx, -, hres⟩ := hgot r
  rw [hP] at hres
  obtain ⟨rfl, h⟩ := hres (by unfold World.Lacks; rw [hc r]; exact hl r)
  exact ⟨hx, h⟩

/-- **C46.** A call on an existing root directory without an optimizer info raises
`FileNotFoundError` and changes nothing. -/
theorem C46_no_info (W : World V) (p : Nat) (g : Res → V)
    (hroot : W.root = true) (hp : W.Free p) (hm : (W.cell .info).data = .missing) :
    (call F W p g).Raised p .fileNotFound ∧ (call F W p g).cell = W.cell := by
  rw [call_existing hp hroot, hm, steps_stopped (Or.inr ⟨.fileNotFound, by simp⟩)]
  exact ⟨by simp [World.Raised], rfl⟩

/-! ### Any number of processes, any schedule, kills at any point -/

/-- **C46.** Once an optimizer info is stored it never changes, whatever calls, kills and updates
of the other resources follow. -/
theorem C46_info_is_permanent (g₀ : Res → V) (s t : List (Act V)) (v : V)
    (h : (run F (init g₀) s).Has .info v) : (run F (init g₀) (s ++ t)).Has .info v := by
  rw [run_append]
  exact info_run ((Inv.init g₀).run s) h t

/-- **C46.** In every schedule, all processes whose call returned are members of one run: there is
one stored optimizer info, and each of them uses it, or uses the value it was written from. -/
theorem C46_one_info (g₀ : Res → V) (s : List (Act V)) (p : Nat)
    (h : (run F (init g₀) s).Returned p) :
    ∃ x v, (run F (init g₀) s).Has .info v ∧
      ((run F (init g₀) s).proc p).got .info = some x ∧
      (x = v ∨ F.roundtrip .info x = some v) ∧
      ∀ r, ∃ w, (run F (init g₀) s).Has r w := by
  have I := (Inv.init (F := F) g₀).run s
  have hp : ∀ r, ((run F (init g₀) s).proc p).pc.passed r := by
    intro r; rw [h]; trivial
  obtain ⟨x, v, hx, hc, hi⟩ := I.passed p .info (hp _)
  refine ⟨x, v, hc, hx, hi rfl, fun r => ?_⟩
  obtain ⟨-, w, -, hw, -⟩ := I.passed p r (hp r)
  exact ⟨w, hw⟩

/-- **C46, partial.** A process that calls when an optimizer info is already stored joins the run
only if its own info is the same, however its operations interleave with those of others. Missing:
processes that call while the info is not stored yet, for which it is false
(`C46_racing_infos_fails`). -/
theorem C46_late_caller_partial (g₀ g : Res → V) (s t : List (Act V)) (p : Nat) (v : V)
    (hv : (run F (init g₀) s).Has .info v) (hp : (run F (init g₀) s).Free p)
    (h : (run F (init g₀) (s ++ .call p g :: t)).Returned p) :
    F.same v (((run F (init g₀) (s ++ .call p g :: t)).proc p).given .info) = true := by
  rw [run_append] at h ⊢
  have I := (Inv.init (F := F) g₀).run s
  generalize Create.run F (Create.init g₀) s = W at *
  have L : Late F v p (Create.act F W (.call p g)) := by
    refine ⟨I.act _, info_act I hv _, ?_⟩
    rcases hp with h' | h' | ⟨e, h'⟩ <;> simp [Create.act, h', Proc.Joins]
  have L' := L.run t
  have ok := L'.ok
  rw [show Create.run F W (.call p g :: t) = Create.run F (Create.act F W (.call p g)) t from rfl]
    at h ⊢
  unfold World.Returned at h
  unfold Proc.Joins at ok
  rw [h] at ok
  exact ok

/-- **C46.** If all processes are started with the same optimizer info, which survives writing and
reading, no call is ever refused because of a mismatch, in any schedule with any kills. -/
theorem C46_same_info_never_refused (g₀ : Res → V) (s : List (Act V)) (i w : V)
    (hi : F.roundtrip .info i = some w) (hs : F.same w i = true)
    (hall : CallsWith (fun g => g .info = i) s) (p : Nat) :
    ¬ (run F (init g₀) s).Raised p .mismatch := by
  suffices H : ∀ (s : List (Act V)) (W : World V), Agree F i w W →
      CallsWith (fun g => g .info = i) s → Agree F i w (run F W s) by
    exact (H s (init g₀) ⟨by simp [init], by simp [init, Cell.empty], by simp [init]⟩ hall).fine p
  intro s
  induction s with
  | nil => intro W A _; exact A
  | cons a s ih =>
    intro W A hc
    refine ih _ (A.act hi hs a ?_) (fun p g h => hc p g (List.mem_cons_of_mem _ h))
    rintro p g rfl
    exact hc p g (by simp)

/-! ### Kills -/

/-- **C46, partial.** After any schedule in which all values can be written and nobody was killed
in the middle of writing a resource for the first time, a call that nobody disturbs: creates the run
if the root directory does not exist; joins it if an info is stored and the infos are the same, and
is refused if they are not. Missing: kills inside the first write of a resource
(`C46_killed_write_fails`), and a root directory without an info (`C46_killed_start_fails`). -/
theorem C46_restart_partial (g₀ g : Res → V) (s : List (Act V)) (p : Nat)
    (hk : SafeKills F (init g₀) s)
    (hc : CallsWith (fun g => ∀ r, ∃ v, F.roundtrip r (g r) = some v) s)
    (hg : ∀ r, ∃ v, F.roundtrip r (g r) = some v)
    (hp : (run F (init g₀) s).Free p) (hq : (run F (init g₀) s).Quiet) :
    ((run F (init g₀) s).root = false → (call F (run F (init g₀) s) p g).Returned p) ∧
    ∀ v, (run F (init g₀) s).Has .info v →
      ((call F (run F (init g₀) s) p g).Returned p ↔ F.same v (g .info) = true) ∧
      ((call F (run F (init g₀) s) p g).Raised p .mismatch ↔ F.same v (g .info) = false) := by
  have U : Usable F (run F (init g₀) s) := by
    suffices H : ∀ (s : List (Act V)) (W : World V), Usable F W → SafeKills F W s →
        CallsWith (fun g => ∀ r, ∃ v, F.roundtrip r (g r) = some v) s → Usable F (run F W s) by
      exact H s (init g₀) ⟨Inv.init g₀, fun r _ => Or.inl rfl, by simp [init]⟩ hk hc
    intro s
    induction s with
    | nil => intro W U _ _; exact U
    | cons a s ih =>
      intro W U hk hc
      refine ih _ (U.act a hk.1 ?_) hk.2 (fun p g h => hc p g (List.mem_cons_of_mem _ h))
      rintro p g rfl
      exact hc p g (by simp)
  generalize Create.run F (Create.init g₀) s = W at *
  constructor
  · intro hr
    exact (C46_new_run W p g hq hp hg W (Or.inr ⟨rfl, hr, U.inv.born hr⟩)).1
  · intro v hv
    have hroot : W.root = true := by
      cases hr : W.root with
      | true => rfl
      | false =>
        have := U.inv.born hr .info
        unfold World.Has at hv
        rw [hv] at this
        cases this
    obtain ⟨h1, h2⟩ := C46_existing_run W p g v hroot hq hp hv (fun r _ => by
      rcases U.clean r (hq r) with h | h
      · exact Or.inr ⟨h, hg r⟩
      · exact Or.inl h)
    cases hs : F.same v (g .info) with
    | true =>
      have := (h1 hs).1
      refine ⟨by simpa using this, ?_⟩
      unfold World.Raised World.Returned at *
      rw [this]; simp
    | false =>
      have := (h2 hs).1
      refine ⟨?_, by simpa using this⟩
      unfold World.Raised World.Returned at *
      rw [this]; simp

/-! ### Examples and counterexamples -/

/-- Files that return what was written; infos are compared by equality. -/
def plainFiles : Format Nat := ⟨fun _ v => some v, fun a b => a == b⟩

/-- The arguments of a process with info `i` and seed `s`. -/
def args (i s : Nat) : Res → Nat
  | .info => i
  | .seed => s
  | _ => 0

/-- `n` operations of process `p`. -/
def ops (p n : Nat) : List (Act Nat) := List.replicate n (.step p)

/-- **C46**, an instance: process 0 creates a run with info 7, stores seed 1 and later seed 5.
Process 1 continues it with info 7 and gets seed 5; process 2 is refused with info 8. -/
example :
    let W := run plainFiles (init (args 0 0)) (.call 0 (args 7 1) :: ops 0 15 ++ [.put .seed 5])
    W.Has .info 7 ∧ W.Has .seed 5 ∧ W.root = true ∧
    ((call plainFiles W 1 (args 7 2)).proc 1).pc = .done ∧
    ((call plainFiles W 1 (args 7 2)).proc 1).got .seed = some 5 ∧
    ((call plainFiles W 2 (args 8 2)).proc 2).pc = .failed .mismatch := by
  unfold World.Has
  decide +kernel

/-- The hypotheses of `C46_existing_run`, `C46_restart_partial` and `C46_late_caller_partial` hold
in a run whose creator was killed after it stored the seed: a second process with the same info
completes it. -/
example :
    let s := .call 0 (args 7 1) :: ops 0 8 ++ [.kill 0]
    let W := run plainFiles (init (args 0 0)) s
    W.Has .info 7 ∧ W.Has .seed 1 ∧ W.Lacks .errors ∧ W.Lacks .state ∧ W.Quiet ∧ W.Free 1 ∧
    ((call plainFiles W 1 (args 7 2)).proc 1).pc = .done ∧
    ((call plainFiles W 1 (args 7 2)).proc 1).got .seed = some 1 ∧
    (call plainFiles W 1 (args 7 2)).Has .state 0 := by
  unfold World.Has World.Lacks World.Quiet World.Free
  refine ⟨by decide +kernel, by decide +kernel, by decide +kernel, by decide +kernel, ?_,
    Or.inl (by decide +kernel), by decide +kernel, by decide +kernel, by decide +kernel⟩
  intro r; cases r <;> decide +kernel

/-- The kill of the previous example is outside the first write of a resource, and all values can
be written. -/
example :
    let s := .call 0 (args 7 1) :: ops 0 8 ++ [.kill 0]
    SafeKills plainFiles (init (args 0 0)) s ∧
    CallsWith (fun g => ∀ r, ∃ v, plainFiles.roundtrip r (g r) = some v) s ∧
    CallsWith (fun g => g .info = 7) s := by
  refine ⟨?_, fun p g _ r => ⟨g r, rfl⟩, ?_⟩
  · simp only [ops, SafeKills, List.cons_append, List.replicate, List.nil_append]
    refine ⟨by simp, by simp, by simp, by simp, by simp, by simp, by simp, by simp, by simp, ?_,
      trivial⟩
    intro p hp
    simp only [Act.kill.injEq] at hp
    subst hp
    rintro ⟨r, h | h⟩ <;> revert h <;> cases r <;> decide +kernel
  · intro p g h
    simp only [ops, List.replicate, List.cons_append, List.nil_append, List.mem_cons,
      Act.call.injEq, List.not_mem_nil, or_false, reduceCtorEq] at h
    rw [h.2]
    rfl

/-- **C46 fails** for racing processes: two processes with different infos that both find no root
directory both return; process 1 works in a run whose stored info is the one of process 0. -/
theorem C46_racing_infos_fails :
    let s := [.call 0 (args 7 1), .call 1 (args 8 2), .step 0, .step 1] ++ ops 0 15 ++ ops 1 15
    let W := run plainFiles (init (args 0 0)) s
    W.Returned 0 ∧ W.Returned 1 ∧ W.Has .info 7 ∧ (W.proc 1).given .info = 8 ∧
      (W.proc 1).got .info = some 7 := by
  unfold World.Returned World.Has
  decide +kernel

/-- **C46 fails** for processes that start together with the same arguments: process 1 finds the
root directory that process 0 just made, and raises `FileNotFoundError` because the info is not
there yet. -/
theorem C46_concurrent_start_fails :
    let s := [.call 0 (args 7 1), .call 1 (args 7 2), .step 0, .step 0, .step 1, .step 1, .step 1]
    (run plainFiles (init (args 0 0)) s).Raised 1 .fileNotFound := by
  unfold World.Raised
  decide +kernel

/-- **C46 fails** for a root directory without an optimizer info, whether the user made it or a
process was killed after making it: nobody will ever get into this run, whatever happens later. -/
theorem C46_empty_directory_fails (W : World V) (hroot : W.root = true)
    (hinfo : W.Lacks .info) (hp : ∀ p, (W.proc p).pc = .idle) (s : List (Act V)) (p : Nat) :
    ¬ (run F W s).Returned p := by
  have B : NoInfo W := ⟨hroot, by rw [hinfo]; simp [Cell.empty], fun p => Or.inl (hp p)⟩
  intro h
  unfold World.Returned at h
  rcases (B.run (F := F) s).out p with h' | h' | h' | h' | ⟨e, h'⟩ <;> rw [h] at h' <;> cases h'

/-- The hypotheses hold after a process was killed right after it made the root directory. -/
example :
    let W := run plainFiles (init (args 0 0)) [.call 0 (args 7 1), .step 0, .step 0, .kill 0]
    W.root = true ∧ W.Lacks .info ∧ ∀ p, (W.proc p).pc = .idle := by
  refine ⟨rfl, rfl, fun p => ?_⟩
  by_cases hp : p = 0
  · subst hp; rfl
  · simp [run, act, step, set, hp, init]

/-- **C46 fails** after a kill inside the first write of a resource: the version is there and the
data is not, nobody is writing it, and nobody has loaded it. Nobody will ever get into this run. -/
theorem C46_killed_write_fails (W : World V) (r : Res) (hver : (W.cell r).ver = true)
    (hbad : ∀ v, (W.cell r).data ≠ .whole v) (hp : ∀ p, (W.proc p).pc = .idle)
    (s : List (Act V)) (p : Nat) : ¬ (run F W s).Returned p := by
  have B : Broken r W := ⟨hver, hbad, fun p => by simp [hp, PC.passed]⟩
  intro h
  unfold World.Returned at h
  have := ((B.run (F := F) s).out p).2.2
  rw [h] at this
  exact this trivial

/-- The hypotheses hold after a process was killed while it wrote the seed (and likewise for the
other resources and for a kill one operation earlier). -/
example :
    let W := run plainFiles (init (args 0 0)) (.call 0 (args 7 1) :: ops 0 7 ++ [.kill 0])
    (W.cell .seed).ver = true ∧ (W.cell .seed).data = .torn ∧ W.Has .info 7 ∧
      ∀ p, (W.proc p).pc = .idle := by
  refine ⟨rfl, rfl, rfl, fun p => ?_⟩
  by_cases hp : p = 0
  · subst hp; rfl
  · simp [ops, List.replicate, run, act, step, set, hp, init, Cell.empty, plainFiles, PC.after,
      Res.next]

/-! ### Which infos can be used again -/

/-- **C46, partial.** Calling again with the same arguments: the first call creates the run, and the
second one, by any process, gets into it exactly if the optimizer info contains no NaN and no
iterable other than texts, lists and mappings. Missing: other infos, which are not equal to what is
read back, so that the same arguments are refused (`C46_tuple_fails`). -/
theorem C46_same_arguments_partial (other : Res → IVal → Option IVal) (g₀ g : Res → IVal)
    (p q : Nat) (hwf : (g .info).WF) (hobj : ¬ (g .info).HasObj)
    (ho : ∀ r, r ≠ .info → ∃ w, other r (g r) = some w) :
    (call (yaml other) (init g₀) p g).Returned p ∧
    ((call (yaml other) (call (yaml other) (init g₀) p g) q g).Returned q ↔ (g .info).Plain) := by
  have hw : ∀ r, ∃ w, (yaml other).roundtrip r (g r) = some w := by
    intro r
    cases r with
    | info =>
      cases h : (g .info).stored with
      | none => exact absurd ((IVal.stored_none_iff _).1 h) hobj
      | some w => exact ⟨w, h⟩
    | seed => exact ho _ (by decide)
    | errors => exact ho _ (by decide)
    | state => exact ho _ (by decide)
  have hI := (Inv.init (F := yaml other) g₀).run (.call p g :: List.replicate callSteps (.step p))
  change Inv _ (call (yaml other) (init g₀) p g) at hI
  obtain ⟨hret, hall⟩ := C46_new_run (F := yaml other) (init g₀) p g (fun _ => rfl) (Or.inl rfl) hw
    (init g₀) (Or.inr ⟨rfl, rfl, fun _ => rfl⟩)
  have hidle : ∀ q, q ≠ p → ((call (yaml other) (init g₀) p g).proc q).pc = .idle := by
    intro q hq
    have : ∀ (n : Nat) (W : World IVal), ((steps (yaml other) p n W).proc q) = W.proc q := by
      intro n
      induction n with
      | zero => intro W; rfl
      | succ n ih =>
        intro W
        rw [steps_succ, ih]
        simp only [step]
        split
        · rfl
        · rfl
        · rfl
        · simp [set_ne _ _ hq]
        · simp [set_ne _ _ hq]
        · split <;> simp [set_ne _ _ hq]
        · split
          · split <;> simp [set_ne _ _ hq]
          · rfl
        · simp [set_ne _ _ hq]
        · split <;> simp [set_ne _ _ hq]
        · split
          · split <;> simp [set_ne _ _ hq]
          · rfl
    rw [call_start (Or.inl rfl), this]
    simp [set_ne _ _ hq, init]
  generalize call (yaml other) (init g₀) p g = W at *
  refine ⟨hret, ?_⟩
  obtain ⟨w, hw1, hw2⟩ := (hall .info).2
  have hw1 : (g .info).stored = some w := hw1
  have hroot : W.root = true := hI.entered p (by rw [hret]; rfl)
  have hfree : W.Free q := by
    by_cases h : q = p
    · subst h; exact Or.inr (Or.inl hret)
    · exact Or.inl (hidle q h)
  have hquiet : W.Quiet := by
    intro r
    cases hl : W.lock r with
    | none => rfl
    | some o =>
      have := hI.lockIn r o hl
      by_cases h : o = p
      · subst h
        unfold World.Returned at hret
        rw [hret] at this
        simp at this
      · rw [hidle o h] at this
        simp at this
  obtain ⟨h1, h2⟩ := C46_existing_run (F := yaml other) W q g w hroot hquiet hfree hw2
    (fun r _ => Or.inl (by obtain ⟨-, w', -, h⟩ := hall r; exact ⟨w', h⟩))
  rw [← IVal.same_iff_plain hwf]
  constructor
  · intro h
    refine ⟨w, hw1, ?_⟩
    cases hs : (yaml other).same w (g .info) with
    | true => exact hs
    | false =>
      have := (h2 hs).1
      unfold World.Raised World.Returned at *
      rw [h] at this
      cases this
  · rintro ⟨w', hw', he⟩
    rw [hw1] at hw'
    simp only [Option.some.injEq] at hw'
    subst hw'
    exact (h1 he).1

/-- The optimizer info of a hyperband run, without and with a tuple among the arguments. -/
def demoInfo (extra : List (String × IVal)) : IVal :=
  .dict [("searcher_name", .str "hyperband"), ("searcher_alg", .str "hyperband"),
    ("searcher_selection", .str "neps-default"), ("neps_decision_tree", .bool true),
    ("searcher_args", .dict (("eta", .int 3) :: ("random_interleave_prob", .float (.num 0)) :: extra))]

/-- Arguments with an info. -/
def iargs (i : IVal) : Res → IVal
  | .info => i
  | _ => .none

/-- The hypotheses hold and the info is plain. -/
example : (iargs (demoInfo []) .info).WF ∧ ¬ (iargs (demoInfo []) .info).HasObj ∧
    (iargs (demoInfo []) .info).Plain := by
  simp [iargs, demoInfo, IVal.WF, IVal.WFDict, IVal.HasObj, IVal.HasObjDict, IVal.Plain,
    IVal.PlainDict]

/-- **C46 fails** for an info with a tuple: the run is created, and a second call with the very same
arguments is refused as a mismatch. -/
theorem C46_tuple_fails :
    let F := yaml (fun _ v => some v)
    let g := iargs (demoInfo [("fidelities", .tuple [.int 1, .int 3])])
    let W := call F (init g) 0 g
    W.Returned 0 ∧ (call F W 1 g).Raised 1 .mismatch := by
  unfold World.Returned World.Raised
  decide +kernel

/-- **C46 fails** for an info that cannot be written (an object among the arguments of the
optimizer): the call raises, and leaves a directory behind that nobody will ever get into, whatever
arguments they use. -/
theorem C46_unwritable_info_fails (other : Res → IVal → Option IVal) (g₀ g : Res → IVal) (p : Nat)
    (hobj : (g .info).HasObj) :
    (call (yaml other) (init g₀) p g).Raised p .unwritable ∧
    ∀ s q, ¬ (run (yaml other) (call (yaml other) (init g₀) p g) s).Returned q := by
  have hn : (yaml other).roundtrip .info (g .info) = none := (IVal.stored_none_iff _).2 hobj
  have hW : call (yaml other) (init g₀) p g = ⟨true, set (fun _ => .empty) .info ⟨true, .torn⟩,
      fun _ => none, set (init g₀).proc p ⟨g, .failed .unwritable, fun _ => none⟩⟩ := by
    rw [call_two (Or.inl rfl)]
    have hroot : (init g₀).root = false := rfl
    simp only [hroot, Bool.false_eq_true, if_false]
    rw [show 13 = 3 + 10 from rfl, steps_add]
    have h3 : steps (yaml other) p 3 { init g₀ with
        root := true, proc := set (init g₀).proc p ⟨g, .create .info, fun _ => none⟩ } =
        ⟨true, set (fun _ => .empty) .info ⟨true, .torn⟩,
        fun _ => none, set (init g₀).proc p ⟨g, .failed .unwritable, fun _ => none⟩⟩ := by
      rw [steps_succ, steps_succ, steps_succ, steps_zero]
      simp only [step, set_same, init, Cell.empty, Option.isNone_none, if_true, hn,
        Bool.false_eq_true, if_false]
      congr 1 <;> funext x
      · by_cases h : x = .info <;> simp [set, h]
      · by_cases h : x = .info <;> simp [set, h]
      · by_cases h : x = p <;> simp [set, h]
    rw [h3, steps_stopped (Or.inr ⟨.unwritable, by simp⟩)]
  rw [hW]
  refine ⟨by simp [World.Raised], fun s q h => ?_⟩
  have B : Broken .info (⟨true, set (fun _ => .empty) .info ⟨true, .torn⟩,
      fun _ => none, set (init g₀).proc p ⟨g, .failed .unwritable, fun _ => none⟩⟩ :
      World IVal) := by
    refine ⟨by simp, by simp, fun q => ?_⟩
    by_cases hq : q = p
    · subst hq; simp [PC.passed]
    · simp [set_ne _ _ hq, init, PC.passed]
  have := ((B.run (F := yaml other) s).out q).2.2
  unfold World.Returned at h
  rw [h] at this
  exact this trivial

/-- An optimizer argument that YAML cannot represent. -/
example : (iargs (demoInfo [("surrogate", .obj 0)]) .info).HasObj := by
  simp [iargs, demoInfo, IVal.HasObj, IVal.HasObjDict]

end Neps.Create
