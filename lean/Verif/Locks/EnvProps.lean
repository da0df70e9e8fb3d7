import Verif.Locks.Env

/-!
# C151: environment variables configure the waiting for locks
-/

namespace Neps.Locks

/-- Specification: the text `e` means "no timeout of ours". -/
def SaysNone (e : String) : Prop :=
  ∃ w ∈ ["none", "n", "null"], e.toList.map Char.toLower = w.toList

/-- Specification: the polling interval is `x`. -/
def PollIs (float : String → Option PyFloat) (env : String → Option String) (key : String)
    (x : PyFloat) : Prop :=
  (env key = none ∧ x = .num (1 / 20)) ∨ ∃ e, env key = some e ∧ float e = some x

/-- Specification: the timeout is `x`. -/
def TimeoutIs (float : String → Option PyFloat) (env : String → Option String) (key : String)
    (x : Option PyFloat) : Prop :=
  (env key = none ∧ x = some (.num 120)) ∨
  ∃ e, env key = some e ∧ ((SaysNone e ∧ x = none) ∨ (¬ SaysNone e ∧ ∃ y, float e = some y ∧ x = some y))

/-- Specification: the text of a variable cannot be understood. -/
def Malformed (float : String → Option PyFloat) (env : String → Option String) : Prop :=
  ∃ r : Resource,
    (∃ e, env r.pollKey = some e ∧ float e = none) ∨
    ∃ e, env r.timeoutKey = some e ∧ ¬ SaysNone e ∧ float e = none

theorem isNullable_iff (e : String) : isNullable e = true ↔ SaysNone e := by
  have key : ∀ w : String, e.toLower = w ↔ e.toList.map Char.toLower = w.toList := by
    intro w
    rw [String.toLower, ← String.toList_map]
    exact String.toList_inj.symm
  simp only [isNullable, SaysNone, List.contains_iff_mem]
  constructor
  · intro h
    exact ⟨_, h, (key _).mp rfl⟩
  · rintro ⟨w, hw, he⟩
    rw [(key w).mpr he]
    exact hw

theorem poll_iff (float : String → Option PyFloat) (env : String → Option String) (k : String)
    (x : PyFloat) (u) :
    getEnv env k float (.num (1 / 20)) = some (x, u) ↔
      PollIs float env k x ∧ u = (k, env k, x) := by
  unfold getEnv PollIs
  cases he : env k with
  | none =>
    simp only [Option.some.injEq, Prod.mk.injEq, true_and, reduceCtorEq, false_and, exists_false,
      or_false]
    constructor
    · rintro ⟨rfl, rfl⟩; exact ⟨rfl, rfl⟩
    · rintro ⟨rfl, rfl⟩; exact ⟨rfl, rfl⟩
  | some e =>
    cases hf : float e with
    | none => simp [hf]
    | some v =>
      simp only [hf, Option.some.injEq, Prod.mk.injEq, reduceCtorEq, false_and, false_or,
        exists_eq_left']
      constructor
      · rintro ⟨rfl, rfl⟩; exact ⟨rfl, rfl⟩
      · rintro ⟨rfl, rfl⟩; exact ⟨rfl, rfl⟩

theorem timeout_iff (float : String → Option PyFloat) (env : String → Option String) (k : String)
    (x : Option PyFloat) (u) :
    getEnv env k (parseTimeout float) (some (.num 120)) = some (x, u) ↔
      TimeoutIs float env k x ∧ u = (k, env k, x) := by
  unfold getEnv TimeoutIs
  cases he : env k with
  | none =>
    simp only [Option.some.injEq, Prod.mk.injEq, true_and, reduceCtorEq, false_and, exists_false,
      or_false]
    constructor
    · rintro ⟨rfl, rfl⟩; exact ⟨rfl, rfl⟩
    · rintro ⟨rfl, rfl⟩; exact ⟨rfl, rfl⟩
  | some e =>
    by_cases hn : SaysNone e
    · have := (isNullable_iff e).mpr hn
      simp only [parseTimeout, this, if_true, Option.some.injEq, Prod.mk.injEq, reduceCtorEq,
        false_and, false_or, exists_eq_left', hn, true_and, not_true_eq_false, or_false]
      constructor
      · rintro ⟨rfl, rfl⟩; exact ⟨rfl, rfl⟩
      · rintro ⟨rfl, rfl⟩; exact ⟨rfl, rfl⟩
    · have : isNullable e = false := by
        rw [← Bool.not_eq_true, isNullable_iff]; exact hn
      cases hf : float e with
      | none => simp [parseTimeout, this, hf, hn]
      | some v =>
        simp only [parseTimeout, this, hf, hn, Bool.false_eq_true, if_false, Option.map_some,
          Option.some.injEq, Prod.mk.injEq, reduceCtorEq, false_and, false_or, exists_eq_left',
          not_false_eq_true, true_and]
        constructor
        · rintro ⟨rfl, rfl⟩; exact ⟨rfl, rfl⟩
        · rintro ⟨rfl, rfl⟩; exact ⟨rfl, rfl⟩

theorem readResource_iff (float : String → Option PyFloat) (env : String → Option String)
    (r : Resource) (w : Waiting) (us : List Used) :
    readResource float env r = some (w, us) ↔
      PollIs float env r.pollKey w.poll ∧ TimeoutIs float env r.timeoutKey w.timeout ∧
      us = [(r.pollKey, env r.pollKey, some w.poll), (r.timeoutKey, env r.timeoutKey, w.timeout)] := by
  unfold readResource
  cases hp : getEnv env r.pollKey float (.num (1 / 20)) with
  | none =>
    simp only [reduceCtorEq, false_iff]
    rintro ⟨h, -, -⟩
    have := (poll_iff float env r.pollKey w.poll _).mpr ⟨h, rfl⟩
    rw [hp] at this
    cases this
  | some pu =>
    obtain ⟨p, k, e, v⟩ := pu
    obtain ⟨h1, h2⟩ := (poll_iff _ _ _ _ _).mp hp
    simp only [Prod.mk.injEq] at h2
    obtain ⟨rfl, rfl, rfl⟩ := h2
    cases ht : getEnv env r.timeoutKey (parseTimeout float) (some (.num 120)) with
    | none =>
      simp only [reduceCtorEq, false_iff]
      rintro ⟨-, h, -⟩
      have := (timeout_iff float env r.timeoutKey w.timeout _).mpr ⟨h, rfl⟩
      rw [ht] at this
      cases this
    | some tu =>
      obtain ⟨t, u⟩ := tu
      obtain ⟨h3, rfl⟩ := (timeout_iff _ _ _ _ _).mp ht
      simp only [Option.some.injEq, Prod.mk.injEq]
      constructor
      · rintro ⟨rfl, rfl⟩; exact ⟨h1, h3, rfl⟩
      · rintro ⟨h4, h5, rfl⟩
        have e1 := (poll_iff float env r.pollKey w.poll _).mpr ⟨h4, rfl⟩
        have e2 := (timeout_iff float env r.timeoutKey w.timeout _).mpr ⟨h5, rfl⟩
        rw [hp] at e1
        rw [ht] at e2
        simp only [Option.some.injEq, Prod.mk.injEq] at e1 e2
        obtain ⟨rfl, -⟩ := e1
        obtain ⟨rfl, -⟩ := e2
        exact ⟨rfl, rfl⟩

theorem importEnv_ok {float : String → Option PyFloat} {env : String → Option String}
    {x : List (Resource × Waiting) × List Used} (h : importEnv float env = some x) :
    ∃ f : Resource → Waiting × List Used, (∀ r, readResource float env r = some (f r)) ∧
      x = (resources.map fun r => (r, (f r).1), resources.flatMap fun r => (f r).2) := by
  unfold importEnv at h
  cases h1 : readResource float env .trial with
  | none => simp [resources, h1] at h
  | some a => cases h2 : readResource float env .seed with
    | none => simp [resources, h1, h2] at h
    | some b => cases h3 : readResource float env .info with
      | none => simp [resources, h1, h2, h3] at h
      | some c => cases h4 : readResource float env .optState with
        | none => simp [resources, h1, h2, h3, h4] at h
        | some d => cases h5 : readResource float env .errors with
          | none => simp [resources, h1, h2, h3, h4, h5] at h
          | some e =>
            refine ⟨fun r => match r with
              | .trial => a | .seed => b | .info => c | .optState => d | .errors => e, ?_, ?_⟩
            · intro r
              cases r <;> simp [h1, h2, h3, h4, h5]
            · simp only [resources, List.mapM_cons, h1, h2, h3, h4, h5, Option.map_some, List.mapM_nil,
                Option.pure_def, Option.bind_eq_bind, Option.bind_some, List.map_cons, List.map_nil,
                List.flatten_cons, List.flatten_nil, List.append_nil, Option.some.injEq] at h
              rw [← h]
              simp [resources]

theorem importEnv_none {float : String → Option PyFloat} {env : String → Option String} :
    importEnv float env = none ↔ ∃ r, readResource float env r = none := by
  constructor
  · intro h
    by_contra hr
    have hr : ∀ r, ∃ x, readResource float env r = some x := fun r =>
      Option.ne_none_iff_exists'.mp fun e => hr ⟨r, e⟩
    obtain ⟨a, ha⟩ := hr .trial
    obtain ⟨b, hb⟩ := hr .seed
    obtain ⟨c, hc⟩ := hr .info
    obtain ⟨d, hd⟩ := hr .optState
    obtain ⟨e, he⟩ := hr .errors
    simp [importEnv, resources, ha, hb, hc, hd, he] at h
  · rintro ⟨r, hr⟩
    cases h : importEnv float env with
    | none => rfl
    | some x =>
      obtain ⟨f, hf, -⟩ := importEnv_ok h
      rw [hf r] at hr
      cases hr

/-- **C151**: if `neps` can be imported, the waiting for every lock is as the two variables of the
resource say: unset means 0.05 and 120 seconds; a number means that number; a timeout of `none`, `n`
or `null`, in whatever case, means that NePS gives no timeout. -/
theorem C151_waiting (float : String → Option PyFloat) (env : String → Option String)
    (ws : List (Resource × Waiting)) (used : List Used) (h : importEnv float env = some (ws, used))
    (r : Resource) :
    ∃ w, (∀ w', (r, w') ∈ ws ↔ w' = w) ∧ PollIs float env r.pollKey w.poll ∧
      TimeoutIs float env r.timeoutKey w.timeout := by
  obtain ⟨f, hf, hx⟩ := importEnv_ok h
  simp only [Prod.mk.injEq] at hx
  obtain ⟨rfl, rfl⟩ := hx
  obtain ⟨h1, h2, -⟩ := (readResource_iff float env r (f r).1 (f r).2).mp (hf r)
  refine ⟨(f r).1, ?_, h1, h2⟩
  intro w'
  cases r <;> simp [resources]

/-- **C151**: importing `neps` fails exactly if a variable is set to a text that cannot be
understood, also one that is not needed. -/
theorem C151_import_fails (float : String → Option PyFloat) (env : String → Option String) :
    importEnv float env = none ↔ Malformed float env := by
  rw [importEnv_none]
  unfold Malformed
  constructor
  · rintro ⟨r, hr⟩
    refine ⟨r, ?_⟩
    by_contra hno
    push Not at hno
    obtain ⟨n1, n2⟩ := hno
    obtain ⟨p, hp⟩ : ∃ p, PollIs float env r.pollKey p := by
      cases he : env r.pollKey with
      | none => exact ⟨_, Or.inl ⟨he, rfl⟩⟩
      | some e =>
        obtain ⟨x, hx⟩ := Option.ne_none_iff_exists'.mp (n1 e he)
        exact ⟨x, Or.inr ⟨e, he, hx⟩⟩
    obtain ⟨t, ht⟩ : ∃ t, TimeoutIs float env r.timeoutKey t := by
      cases he : env r.timeoutKey with
      | none => exact ⟨_, Or.inl ⟨he, rfl⟩⟩
      | some e =>
        by_cases hn : SaysNone e
        · exact ⟨none, Or.inr ⟨e, he, Or.inl ⟨hn, rfl⟩⟩⟩
        · obtain ⟨x, hx⟩ := Option.ne_none_iff_exists'.mp (n2 e he hn)
          exact ⟨some x, Or.inr ⟨e, he, Or.inr ⟨hn, x, hx, rfl⟩⟩⟩
    have := (readResource_iff float env r ⟨p, t⟩ _).mpr ⟨hp, ht, rfl⟩
    rw [hr] at this
    cases this
  · rintro ⟨r, hr⟩
    refine ⟨r, ?_⟩
    cases h : readResource float env r with
    | none => rfl
    | some x =>
      obtain ⟨h1, h2, -⟩ := (readResource_iff float env r x.1 x.2).mp h
      exfalso
      rcases hr with ⟨e, he, hf⟩ | ⟨e, he, hn, hf⟩
      · rcases h1 with ⟨h, -⟩ | ⟨e', h, hf'⟩
        · rw [he] at h; cases h
        · rw [he] at h
          obtain rfl := Option.some.inj h
          rw [hf] at hf'; cases hf'
      · rcases h2 with ⟨h, -⟩ | ⟨e', h, hc⟩
        · rw [he] at h; cases h
        · rw [he] at h
          obtain rfl := Option.some.inj h
          rcases hc with ⟨hs, -⟩ | ⟨-, y, hy, -⟩
          · exact hn hs
          · rw [hf] at hy; cases hy

/-- **C151**: what the message of a timeout lists: every variable once, with its text if it is set,
and the value that is used. -/
theorem C151_used (float : String → Option PyFloat) (env : String → Option String)
    (ws : List (Resource × Waiting)) (used : List Used) (h : importEnv float env = some (ws, used)) :
    (used.map (·.1)).Nodup ∧
    ∀ r w, (r, w) ∈ ws → (r.pollKey, env r.pollKey, some w.poll) ∈ used ∧
      (r.timeoutKey, env r.timeoutKey, w.timeout) ∈ used := by
  obtain ⟨f, hf, hx⟩ := importEnv_ok h
  simp only [Prod.mk.injEq] at hx
  obtain ⟨rfl, rfl⟩ := hx
  have hu := fun r => ((readResource_iff float env r (f r).1 (f r).2).mp (hf r)).2.2
  constructor
  · simp [resources, hu, Resource.pollKey, Resource.timeoutKey]
  · intro r w hw
    simp only [List.mem_map, Prod.mk.injEq] at hw
    obtain ⟨r', -, rfl, rfl⟩ := hw
    constructor
    · refine List.mem_flatMap.mpr ⟨r', by cases r' <;> simp [resources], ?_⟩
      rw [hu]; simp
    · refine List.mem_flatMap.mpr ⟨r', by cases r' <;> simp [resources], ?_⟩
      rw [hu]; simp

/-- **C151**: each variable concerns one resource only. -/
theorem C151_separate (float : String → Option PyFloat) (env env' : String → Option String)
    (ws ws' : List (Resource × Waiting)) (used used' : List Used)
    (h : importEnv float env = some (ws, used)) (h' : importEnv float env' = some (ws', used'))
    (r : Resource) (hp : env r.pollKey = env' r.pollKey)
    (ht : env r.timeoutKey = env' r.timeoutKey) (w : Waiting) : (r, w) ∈ ws ↔ (r, w) ∈ ws' := by
  obtain ⟨f, hf, hx⟩ := importEnv_ok h
  obtain ⟨f', hf', hx'⟩ := importEnv_ok h'
  simp only [Prod.mk.injEq] at hx hx'
  obtain ⟨rfl, rfl⟩ := hx
  obtain ⟨rfl, rfl⟩ := hx'
  have e : f r = f' r := by
    have h1 := hf r
    have h2 := hf' r
    unfold readResource getEnv at h1 h2
    rw [hp, ht] at h1
    rw [h1] at h2
    exact Option.some.inj h2
  cases r <;> simp [resources, e]

/-- An environment with a timeout for the trials and none for the errors. -/
def sampleEnv (k : String) : Option String :=
  if k = "NEPS_TRIAL_FILELOCK_TIMEOUT" then some "600"
  else if k = "NEPS_GLOBAL_ERR_FILELOCK_TIMEOUT" then some "None"
  else none

/-- `float` on one text. -/
def sampleFloat (s : String) : Option PyFloat := if s = "600" then some (.num 600) else none

/-- Hypotheses of `C151_waiting`, `C151_used` and `C151_separate`. -/
example : (importEnv sampleFloat sampleEnv).map (·.1) = some
    [(.trial, ⟨.num (1 / 20), some (.num 600)⟩), (.seed, ⟨.num (1 / 20), some (.num 120)⟩),
      (.info, ⟨.num (1 / 20), some (.num 120)⟩), (.optState, ⟨.num (1 / 20), some (.num 120)⟩),
      (.errors, ⟨.num (1 / 20), none⟩)] := by
  decide +kernel

/-- A polling interval cannot be `none`: the import fails. -/
example : Malformed sampleFloat fun k =>
    if k = "NEPS_TRIAL_FILELOCK_POLL" then some "none" else none :=
  ⟨.trial, Or.inl ⟨"none", rfl, rfl⟩⟩

end Neps.Locks
