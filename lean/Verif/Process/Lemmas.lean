import Verif.Process.Spec

/-!
# Lemmas on the global variables of a process
-/

namespace Neps.Proc

variable {S T : Type}

/-- Events among which no objective is called, nobody is notified and nothing is reported. -/
def Quiet (events : List (Event S T)) : Prop :=
  ∀ e ∈ events, (∀ s t, e ≠ .started s t) ∧ (∀ k t, e ≠ .notified k t) ∧ ∀ s t, e ≠ .reported s t

theorem Quiet.nil : Quiet ([] : List (Event S T)) := by simp [Quiet]

theorem Quiet.append {a b : List (Event S T)} (ha : Quiet a) (hb : Quiet b) : Quiet (a ++ b) := by
  intro e he
  rcases List.mem_append.mp he with h | h
  · exact ha e h
  · exact hb e h

theorem Quiet.cons {e : Event S T} {a : List (Event S T)}
    (he : (∀ s t, e ≠ .started s t) ∧ (∀ k t, e ≠ .notified k t) ∧ ∀ s t, e ≠ .reported s t)
    (ha : Quiet a) : Quiet (e :: a) := by
  intro x hx
  rcases List.mem_cons.mp hx with rfl | h
  · exact he
  · exact ha x h

theorem Quiet.lists {l : List (Event S T)} (hl : Quiet l) : starts l = [] ∧ reports l = [] := by
  constructor
  · simp only [starts, List.filterMap_eq_nil_iff]
    intro e he
    have := (hl e he).1
    cases e <;> simp_all
  · simp only [reports, List.filterMap_eq_nil_iff]
    intro e he
    have := (hl e he).2.2
    cases e <;> simp_all

mutual

/-- While there is a trial in the slot, it stays there and nothing is evaluated. -/
theorem Code.exec_some (place : Option (S × T)) (u : T) :
    (c : Code S T) → (g : Globals S T) → g.trial = some u →
      (c.exec place g).2.1.trial = some u ∧ Quiet (c.exec place g).1
  | .done, g, h => by simp [Code.exec, h, Quiet.nil]
  | .raise, g, h => by simp [Code.exec, h, Quiet.nil]
  | .interrupt, g, h => by simp [Code.exec, h, Quiet.nil]
  | .look rest, g, h => by
    have ih := Code.exec_some place u rest g h
    simp only [Code.exec]
    exact ⟨ih.1, ih.2.cons (by simp)⟩
  | .register key rest, g, h => by
    have ih := Code.exec_some place u rest { g with callbacks := addKey g.callbacks key } h
    simp only [Code.exec]
    exact ⟨ih.1, ih.2.cons (by simp)⟩
  | .attempt body rest, g, h => by
    have ih := Code.exec_some place u body g h
    simp only [Code.exec]
    split
    · exact ih
    · have ih' := Code.exec_some place u rest _ ih.1
      exact ⟨ih'.1, ih.2.append ih'.2⟩
  | .run s ignoreErrors evals rest, g, h => by
    have ih := Evals.exec_some s ignoreErrors u evals { g with worker := some s } h
    simp only [Code.exec]
    split
    · have ih' := Code.exec_some place u rest _ ih.1
      exact ⟨ih'.1, ih.2.append ih'.2⟩
    · exact ih

theorem Evals.exec_some (s : S) (ignoreErrors : Bool) (u : T) :
    (c : Evals S T) → (g : Globals S T) → g.trial = some u →
      (c.exec s ignoreErrors g).2.1.trial = some u ∧ Quiet (c.exec s ignoreErrors g).1
  | .nil, g, h => by simp [Evals.exec, h, Quiet.nil]
  | .cons t objective valid rest, g, h => by
    simp only [Evals.exec, h, Option.isSome_some, if_true]
    exact ⟨trivial, Quiet.nil.cons (by simp)⟩

end

theorem session_some (u : T) : (cells : List (Code S T)) → (g : Globals S T) →
    g.trial = some u → (session g cells).2.trial = some u ∧ Quiet (session g cells).1
  | [], g, h => ⟨h, Quiet.nil⟩
  | c :: cs, g, h => by
    have ih := c.exec_some none u g h
    have ih' := session_some u cs _ ih.1
    exact ⟨ih'.1, ih.2.append ih'.2⟩

/-! ## The trial that an objective finds -/

/-- Within evaluations, the trial is found. -/
def Sees (events : List (Event S T)) : Prop :=
  ∀ s t trial state, .looked (some (s, t)) trial state ∈ events → trial = some t

theorem Sees.append {a b : List (Event S T)} (ha : Sees a) (hb : Sees b) : Sees (a ++ b) := by
  intro s t trial state h
  rcases List.mem_append.mp h with h | h
  · exact ha _ _ _ _ h
  · exact hb _ _ _ _ h

mutual

theorem Code.exec_sees (place : Option (S × T)) :
    (c : Code S T) → (g : Globals S T) → (∀ s t, place = some (s, t) → g.trial = some t) →
      Sees (c.exec place g).1
  | .done, g, _ => by simp [Code.exec, Sees]
  | .raise, g, _ => by simp [Code.exec, Sees]
  | .interrupt, g, _ => by simp [Code.exec, Sees]
  | .look rest, g, h => by
    have ih := Code.exec_sees place rest g h
    simp only [Code.exec]
    intro s t trial state hm
    rcases List.mem_cons.mp hm with hm | hm
    · injection hm with h1 h2 h3
      rw [h2]
      exact h s t h1.symm
    · exact ih s t trial state hm
  | .register key rest, g, h => by
    have ih := Code.exec_sees place rest { g with callbacks := addKey g.callbacks key } h
    simp only [Code.exec]
    intro s t trial state hm
    rcases List.mem_cons.mp hm with hm | hm
    · simp at hm
    · exact ih s t trial state hm
  | .attempt body rest, g, h => by
    have ih := Code.exec_sees place body g h
    simp only [Code.exec]
    split
    · exact ih
    · refine ih.append (Code.exec_sees place rest _ ?_)
      intro s t hp
      exact (body.exec_some place t g (h s t hp)).1
  | .run s ignoreErrors evals rest, g, h => by
    have ih := Evals.exec_sees s ignoreErrors evals { g with worker := some s }
    simp only [Code.exec]
    split
    · refine ih.append (Code.exec_sees place rest _ ?_)
      intro s' t hp
      exact (evals.exec_some s ignoreErrors t { g with worker := some s } (h s' t hp)).1
    · exact ih

theorem Evals.exec_sees (s : S) (ignoreErrors : Bool) :
    (c : Evals S T) → (g : Globals S T) → Sees (c.exec s ignoreErrors g).1
  | .nil, g => by simp [Evals.exec, Sees]
  | .cons t objective valid rest, g => by
    have ih := Code.exec_sees (some (s, t)) objective { g with trial := some t }
      (by intro s' t' h; cases h; rfl)
    have hb : Sees (.claimed s t :: .started s t ::
        (objective.exec (some (s, t)) { g with trial := some t }).1) := by
      intro s' t' trial state hm
      simp only [List.mem_cons, reduceCtorEq, false_or] at hm
      exact ih s' t' trial state hm
    simp only [Evals.exec]
    split
    · simp [Sees]
    · split
      · exact hb
      · split
        · exact hb
        · have he : Sees ((.claimed s t :: .started s t ::
              (objective.exec (some (s, t)) { g with trial := some t }).1) ++
              (objective.exec (some (s, t)) { g with trial := some t }).2.1.callbacks.map
                (fun k => .notified k t) ++ [.reported s t]) :=
            (hb.append (by simp [Sees])).append (by simp [Sees])
          split
          · exact he
          · exact he.append (Evals.exec_sees s ignoreErrors rest _)

end

theorem session_sees : (cells : List (Code S T)) → (g : Globals S T) → Sees (session g cells).1
  | [], _ => by simp [session, Sees]
  | c :: cs, g => (c.exec_sees none g (by simp)).append (session_sees cs _)

/-! ## The state that an objective finds -/

/-- Within evaluations, the state of the run is found. -/
def SeesState (events : List (Event S T)) : Prop :=
  ∀ s t trial state, .looked (some (s, t)) trial state ∈ events → state = some s

theorem SeesState.append {a b : List (Event S T)} (ha : SeesState a) (hb : SeesState b) :
    SeesState (a ++ b) := by
  intro s t trial state h
  rcases List.mem_append.mp h with h | h
  · exact ha _ _ _ _ h
  · exact hb _ _ _ _ h

/-- Code without runs leaves the slot and the state as they are, finds them and does nothing else. -/
theorem Code.exec_noRun (place : Option (S × T)) :
    (c : Code S T) → (g : Globals S T) → c.noRun →
      (c.exec place g).2.1.worker = g.worker ∧ (c.exec place g).2.1.trial = g.trial ∧
      ∀ e ∈ (c.exec place g).1, e = .looked place g.trial g.worker ∨ ∃ k, e = .registered k
  | .done, g, _ => by simp [Code.exec]
  | .raise, g, _ => by simp [Code.exec]
  | .interrupt, g, _ => by simp [Code.exec]
  | .look rest, g, h => by
    have ih := Code.exec_noRun place rest g h
    simp only [Code.exec]
    refine ⟨ih.1, ih.2.1, ?_⟩
    intro e he
    rcases List.mem_cons.mp he with rfl | he
    · exact .inl rfl
    · exact ih.2.2 e he
  | .register key rest, g, h => by
    have ih := Code.exec_noRun place rest { g with callbacks := addKey g.callbacks key } h
    simp only [Code.exec]
    refine ⟨ih.1, ih.2.1, ?_⟩
    intro e he
    rcases List.mem_cons.mp he with rfl | he
    · exact .inr ⟨_, rfl⟩
    · exact ih.2.2 e he
  | .attempt body rest, g, h => by
    have ih := Code.exec_noRun place body g h.1
    simp only [Code.exec]
    split
    · exact ih
    · have ih' := Code.exec_noRun place rest (body.exec place g).2.1 h.2
      refine ⟨ih'.1.trans ih.1, ih'.2.1.trans ih.2.1, ?_⟩
      intro e he
      rcases List.mem_append.mp he with he | he
      · exact ih.2.2 e he
      · have := ih'.2.2 e he
        rwa [ih.1, ih.2.1] at this

theorem Evals.exec_flat (s : S) (ignoreErrors : Bool) :
    (c : Evals S T) → (g : Globals S T) → c.flat → g.worker = some s →
      SeesState (c.exec s ignoreErrors g).1 ∧ (c.exec s ignoreErrors g).2.1.worker = some s
  | .nil, g, _, hw => by simp [Evals.exec, SeesState, hw]
  | .cons t objective valid rest, g, h, hw => by
    have ih := Code.exec_noRun (some (s, t)) objective { g with trial := some t } h.1
    have hb : SeesState (.claimed s t :: .started s t ::
        (objective.exec (some (s, t)) { g with trial := some t }).1) := by
      intro s' t' trial state hm
      simp only [List.mem_cons, reduceCtorEq, false_or] at hm
      rcases ih.2.2 _ hm with hm | ⟨k, hm⟩
      · injection hm with h1 h2 h3
        cases h1
        rw [h3]
        exact hw
      · simp at hm
    have hw' : (objective.exec (some (s, t)) { g with trial := some t }).2.1.worker = some s :=
      ih.1.trans hw
    simp only [Evals.exec]
    split
    · exact ⟨by simp [SeesState], hw⟩
    · split
      · exact ⟨hb, hw'⟩
      · split
        · exact ⟨hb, hw'⟩
        · have he : SeesState ((.claimed s t :: .started s t ::
              (objective.exec (some (s, t)) { g with trial := some t }).1) ++
              (objective.exec (some (s, t)) { g with trial := some t }).2.1.callbacks.map
                (fun k => .notified k t) ++ [.reported s t]) :=
            (hb.append (by simp [SeesState])).append (by simp [SeesState])
          split
          · exact ⟨he, hw'⟩
          · have ih' := Evals.exec_flat s ignoreErrors rest
              { (objective.exec (some (s, t)) { g with trial := some t }).2.1 with trial := none }
              h.2 hw'
            exact ⟨he.append ih'.1, ih'.2⟩

theorem Code.exec_flat : (c : Code S T) → (g : Globals S T) → c.flat →
    SeesState (c.exec none g).1
  | .done, g, _ => by simp [Code.exec, SeesState]
  | .raise, g, _ => by simp [Code.exec, SeesState]
  | .interrupt, g, _ => by simp [Code.exec, SeesState]
  | .look rest, g, h => by
    have ih := Code.exec_flat rest g h
    simp only [Code.exec]
    intro s t trial state hm
    simp only [List.mem_cons, Event.looked.injEq, reduceCtorEq, false_and, false_or] at hm
    exact ih s t trial state hm
  | .register key rest, g, h => by
    have ih := Code.exec_flat rest { g with callbacks := addKey g.callbacks key } h
    simp only [Code.exec]
    intro s t trial state hm
    simp only [List.mem_cons, reduceCtorEq, false_or] at hm
    exact ih s t trial state hm
  | .attempt body rest, g, h => by
    have ih := Code.exec_flat body g h.1
    simp only [Code.exec]
    split
    · exact ih
    · exact ih.append (Code.exec_flat rest _ h.2)
  | .run s ignoreErrors evals rest, g, h => by
    have ih := Evals.exec_flat s ignoreErrors evals { g with worker := some s } h.1 rfl
    simp only [Code.exec]
    split
    · exact ih.1.append (Code.exec_flat rest _ h.2)
    · exact ih.1

theorem session_flat : (cells : List (Code S T)) → (g : Globals S T) →
    (∀ c ∈ cells, c.flat) → SeesState (session g cells).1
  | [], _, _ => by simp [session, SeesState]
  | c :: cs, g, h =>
    (c.exec_flat g (h c (by simp))).append (session_flat cs _ fun c hc => h c (by simp [hc]))

/-! ## Plain code -/

theorem Code.exec_noInterrupt (place : Option (S × T)) :
    (c : Code S T) → (g : Globals S T) → c.noRun → c.noInterrupt →
      (c.exec place g).2.2 ≠ .interrupted
  | .done, g, _, _ => by simp [Code.exec]
  | .raise, g, _, _ => by simp [Code.exec]
  | .interrupt, g, _, h => h.elim
  | .look rest, g, h, h' => by
    have ih := Code.exec_noInterrupt place rest g h h'
    simpa only [Code.exec] using ih
  | .register key rest, g, h, h' => by
    have ih := Code.exec_noInterrupt place rest
      { g with callbacks := addKey g.callbacks key } h h'
    simpa only [Code.exec] using ih
  | .attempt body rest, g, h, h' => by
    have ih := Code.exec_noInterrupt place body g h.1 h'.1
    simp only [Code.exec, if_neg ih]
    exact Code.exec_noInterrupt place rest _ h.2 h'.2

/-- Everything stored as being evaluated is evaluated and reported, and outside of evaluations no
trial is found. -/
structure Tidy (events : List (Event S T)) : Prop where
  started : starts events = claims events
  reported : reports events = claims events
  outside : ∀ trial state, .looked none trial state ∈ events → trial = none

theorem Tidy.append {a b : List (Event S T)} (ha : Tidy a) (hb : Tidy b) : Tidy (a ++ b) where
  started := by
    have h1 := ha.started
    have h2 := hb.started
    simp only [starts, claims, List.filterMap_append] at *
    rw [h1, h2]
  reported := by
    have h1 := ha.reported
    have h2 := hb.reported
    simp only [reports, claims, List.filterMap_append] at *
    rw [h1, h2]
  outside := by
    intro trial state h
    rcases List.mem_append.mp h with h | h
    · exact ha.outside _ _ h
    · exact hb.outside _ _ h

theorem Tidy.nil : Tidy ([] : List (Event S T)) := ⟨rfl, rfl, by simp⟩

theorem noRun_lists {place : Option (S × T)} {trial : Option T} {state : Option S}
    {events : List (Event S T)}
    (h : ∀ e ∈ events, e = .looked place trial state ∨ ∃ k, e = .registered k) :
    claims events = [] ∧ starts events = [] ∧ reports events = [] := by
  refine ⟨?_, ?_, ?_⟩ <;>
  · simp only [claims, starts, reports, List.filterMap_eq_nil_iff]
    intro e he
    rcases h e he with rfl | ⟨k, rfl⟩ <;> rfl

theorem Evals.exec_plain (s : S) (ignoreErrors : Bool) :
    (c : Evals S T) → (g : Globals S T) → c.plain → g.trial = none →
      Tidy (c.exec s ignoreErrors g).1 ∧ (c.exec s ignoreErrors g).2.1.trial = none
  | .nil, g, _, hg => ⟨Tidy.nil, by simpa [Evals.exec] using hg⟩
  | .cons t objective valid rest, g, h, hg => by
    have ih := Code.exec_noRun (some (s, t)) objective { g with trial := some t } h.1
    have hi := Code.exec_noInterrupt (some (s, t)) objective { g with trial := some t } h.1 h.2.1
    obtain ⟨hc, hs, hr⟩ := noRun_lists ih.2.2
    have he : Tidy ((.claimed s t :: .started s t ::
        (objective.exec (some (s, t)) { g with trial := some t }).1) ++
        (objective.exec (some (s, t)) { g with trial := some t }).2.1.callbacks.map
          (fun k => .notified k t) ++ [.reported s t]) := by
      have hcm : ∀ ks : List String,
          claims (ks.map fun k => (.notified k t : Event S T)) = [] := by
        intro ks; simp [claims, List.filterMap_map]
      have hsm : ∀ ks : List String,
          starts (ks.map fun k => (.notified k t : Event S T)) = [] := by
        intro ks; simp [starts, List.filterMap_map]
      have hrm : ∀ ks : List String,
          reports (ks.map fun k => (.notified k t : Event S T)) = [] := by
        intro ks; simp [reports, List.filterMap_map]
      refine ⟨?_, ?_, ?_⟩
      · simp only [starts, claims] at hs hc hsm hcm ⊢
        simp only [List.filterMap_append, List.filterMap_cons, hs, hc, hsm, hcm,
          List.filterMap_nil, List.append_nil]
      · simp only [reports, claims] at hr hc hrm hcm ⊢
        simp only [List.filterMap_append, List.filterMap_cons, hr, hc, hrm, hcm,
          List.filterMap_nil, List.append_nil, List.nil_append]
      · intro trial state hm
        simp only [List.cons_append, List.append_assoc, List.mem_cons, reduceCtorEq, false_or,
          List.mem_append, List.mem_map, and_false, exists_false, List.not_mem_nil,
          or_false] at hm
        rcases ih.2.2 _ hm with hm | ⟨k, hm⟩ <;> simp at hm
    simp only [Evals.exec, hg, Option.isSome_none, Bool.false_eq_true, if_false, if_neg hi,
      h.2.2.1, reduceCtorEq, and_false]
    split
    · exact ⟨he, rfl⟩
    · have ih' := Evals.exec_plain s ignoreErrors rest
        { (objective.exec (some (s, t)) { g with trial := some t }).2.1 with trial := none }
        h.2.2.2 rfl
      exact ⟨he.append ih'.1, ih'.2⟩

theorem Code.exec_plain : (c : Code S T) → (g : Globals S T) → c.plain → g.trial = none →
    Tidy (c.exec none g).1 ∧ (c.exec none g).2.1.trial = none
  | .done, g, _, hg => ⟨Tidy.nil, by simpa [Code.exec] using hg⟩
  | .raise, g, _, hg => ⟨Tidy.nil, by simpa [Code.exec] using hg⟩
  | .interrupt, g, _, hg => ⟨Tidy.nil, by simpa [Code.exec] using hg⟩
  | .look rest, g, h, hg => by
    have ih := Code.exec_plain rest g h hg
    simp only [Code.exec]
    refine ⟨Tidy.append (a := [_]) ⟨rfl, rfl, ?_⟩ ih.1, ih.2⟩
    intro trial state hm
    simp only [List.mem_singleton, Event.looked.injEq, true_and] at hm
    rw [hm.1, hg]
  | .register key rest, g, h, hg => by
    have ih := Code.exec_plain rest { g with callbacks := addKey g.callbacks key } h hg
    simp only [Code.exec]
    exact ⟨Tidy.append (a := [_]) ⟨rfl, rfl, by simp⟩ ih.1, ih.2⟩
  | .attempt body rest, g, h, hg => by
    have ih := Code.exec_plain body g h.1 hg
    simp only [Code.exec]
    split
    · exact ih
    · have ih' := Code.exec_plain rest _ h.2 ih.2
      exact ⟨ih.1.append ih'.1, ih'.2⟩
  | .run s ignoreErrors evals rest, g, h, hg => by
    have ih := Evals.exec_plain s ignoreErrors evals { g with worker := some s } h.1 hg
    simp only [Code.exec]
    split
    · have ih' := Code.exec_plain rest _ h.2 ih.2
      exact ⟨ih.1.append ih'.1, ih'.2⟩
    · exact ih

theorem session_plain : (cells : List (Code S T)) → (g : Globals S T) →
    (∀ c ∈ cells, c.plain) → g.trial = none →
      Tidy (session g cells).1 ∧ (session g cells).2.trial = none
  | [], _, _, hg => ⟨Tidy.nil, hg⟩
  | c :: cs, g, h, hg => by
    have ih := c.exec_plain g (h c (by simp)) hg
    have ih' := session_plain cs _ (fun c hc => h c (by simp [hc])) ih.2
    exact ⟨ih.1.append ih'.1, ih'.2⟩

/-! ## Notifications -/

theorem registrations_append (a b : List (Event S T)) (keys : List String) :
    registrations keys (a ++ b) = registrations (registrations keys a) b := by
  induction a generalizing keys with
  | nil => rfl
  | cons e a ih =>
    cases e <;> simp only [List.cons_append, registrations, ih]

theorem registrations_notified (t : T) (ks keys : List String) :
    registrations keys (ks.map fun k => (.notified k t : Event S T)) = keys := by
  induction ks with
  | nil => rfl
  | cons k ks ih => simpa only [List.map_cons, registrations] using ih

/-- Before every report, the callbacks are called with the trial, and before that nothing but the
evaluation. -/
def Heard (keys : List String) (events : List (Event S T)) : Prop :=
  ∀ pre s t post, events = pre ++ .reported s t :: post →
    ∃ p during, Quiet during ∧
      pre = p ++ .claimed s t :: .started s t :: during ++
        (registrations keys pre).map (fun k => .notified k t)

theorem Quiet.heard {events : List (Event S T)} (h : Quiet events) (keys : List String) :
    Heard keys events := by
  intro pre s t post he
  exact absurd rfl ((h (.reported s t) (by simp [he])).2.2 s t)

theorem Heard.append {keys : List String} {a b : List (Event S T)} (ha : Heard keys a)
    (hb : Heard (registrations keys a) b) : Heard keys (a ++ b) := by
  intro pre s t post he
  rcases List.append_eq_append_iff.mp he with ⟨c, hpre, hbc⟩ | ⟨c, hac, hc⟩
  · obtain ⟨p, during, hq, hp⟩ := hb c s t post hbc
    refine ⟨a ++ p, during, hq, ?_⟩
    rw [hpre, registrations_append]
    conv_lhs => rw [hp]
    simp only [List.append_assoc]
  · cases c with
    | nil =>
      simp only [List.append_nil] at hac
      simp only [List.nil_append] at hc
      obtain ⟨p, during, hq, hp⟩ := hb [] s t post (by simpa using hc.symm)
      simp at hp
    | cons x c =>
      simp only [List.cons_append, List.cons.injEq] at hc
      obtain ⟨rfl, _⟩ := hc
      exact ha pre s t c hac

/-- The other way round: whoever is notified, it is followed by the rest of the notifications for
this trial and its report. -/
def Closed (events : List (Event S T)) : Prop :=
  ∀ pre k t post, events = pre ++ .notified k t :: post →
    ∃ (ks : List String) (s : S) (post' : List (Event S T)),
      post = ks.map (fun k => .notified k t) ++ .reported s t :: post'

theorem Quiet.closed {events : List (Event S T)} (h : Quiet events) : Closed events := by
  intro pre k t post he
  exact absurd rfl ((h (.notified k t) (by simp [he])).2.1 k t)

theorem Closed.append {a b : List (Event S T)} (ha : Closed a) (hb : Closed b) :
    Closed (a ++ b) := by
  intro pre k t post he
  rcases List.append_eq_append_iff.mp he with ⟨c, _, hbc⟩ | ⟨c, hac, hc⟩
  · exact hb c k t post hbc
  · cases c with
    | nil =>
      simp only [List.nil_append] at hc
      exact hb [] k t post (by simpa using hc.symm)
    | cons x c =>
      simp only [List.cons_append, List.cons.injEq] at hc
      obtain ⟨rfl, rfl⟩ := hc
      obtain ⟨ks, s, post', hp⟩ := ha pre k t c hac
      exact ⟨ks, s, post' ++ b, by rw [hp]; simp⟩

theorem closed_block (s : S) (t : T) (ks : List String) :
    Closed (ks.map (fun k => (.notified k t : Event S T)) ++ [.reported s t]) := by
  induction ks with
  | nil =>
    intro pre k t' post he
    cases pre with
    | nil => simp at he
    | cons x pre => simp at he
  | cons k0 ks ih =>
    intro pre k t' post he
    cases pre with
    | nil =>
      simp only [List.map_cons, List.cons_append, List.nil_append, List.cons.injEq,
        Event.notified.injEq] at he
      obtain ⟨⟨rfl, rfl⟩, rfl⟩ := he
      exact ⟨ks, s, [], rfl⟩
    | cons x pre =>
      simp only [List.map_cons, List.cons_append, List.cons.injEq] at he
      exact ih pre k t' post he.2

mutual

/-- The callbacks and who has heard of what. -/
theorem Code.exec_heard (place : Option (S × T)) :
    (c : Code S T) → (g : Globals S T) →
      (c.exec place g).2.1.callbacks = registrations g.callbacks (c.exec place g).1 ∧
      Heard g.callbacks (c.exec place g).1 ∧ Closed (c.exec place g).1
  | .done, g => ⟨rfl, Quiet.nil.heard _, Quiet.nil.closed⟩
  | .raise, g => ⟨rfl, Quiet.nil.heard _, Quiet.nil.closed⟩
  | .interrupt, g => ⟨rfl, Quiet.nil.heard _, Quiet.nil.closed⟩
  | .look rest, g => by
    have ih := Code.exec_heard place rest g
    have hq : Quiet [(.looked place g.trial g.worker : Event S T)] := Quiet.nil.cons (by simp)
    simp only [Code.exec]
    exact ⟨ih.1, Heard.append (hq.heard _) ih.2.1, Closed.append hq.closed ih.2.2⟩
  | .register key rest, g => by
    have ih := Code.exec_heard place rest { g with callbacks := addKey g.callbacks key }
    have hq : Quiet [(.registered key : Event S T)] := Quiet.nil.cons (by simp)
    simp only [Code.exec]
    exact ⟨ih.1, Heard.append (hq.heard _) ih.2.1, Closed.append hq.closed ih.2.2⟩
  | .attempt body rest, g => by
    have ih := Code.exec_heard place body g
    simp only [Code.exec]
    split
    · exact ih
    · have ih' := Code.exec_heard place rest (body.exec place g).2.1
      rw [ih.1] at ih'
      exact ⟨by rw [registrations_append]; exact ih'.1, ih.2.1.append ih'.2.1,
        ih.2.2.append ih'.2.2⟩
  | .run s ignoreErrors evals rest, g => by
    have ih := Evals.exec_heard s ignoreErrors evals { g with worker := some s }
    simp only [Code.exec]
    split
    · have ih' := Code.exec_heard place rest
        (evals.exec s ignoreErrors { g with worker := some s }).2.1
      rw [ih.1] at ih'
      exact ⟨by rw [registrations_append]; exact ih'.1, ih.2.1.append ih'.2.1,
        ih.2.2.append ih'.2.2⟩
    · exact ih

theorem Evals.exec_heard (s : S) (ignoreErrors : Bool) :
    (c : Evals S T) → (g : Globals S T) →
      (c.exec s ignoreErrors g).2.1.callbacks
        = registrations g.callbacks (c.exec s ignoreErrors g).1 ∧
      Heard g.callbacks (c.exec s ignoreErrors g).1 ∧ Closed (c.exec s ignoreErrors g).1
  | .nil, g => ⟨rfl, Quiet.nil.heard _, Quiet.nil.closed⟩
  | .cons t objective valid rest, g => by
    have ih := Code.exec_heard (some (s, t)) objective { g with trial := some t }
    have hq := (objective.exec_some (some (s, t)) t { g with trial := some t } rfl).2
    simp only [Evals.exec]
    generalize objective.exec (some (s, t)) { g with trial := some t } = r at ih hq
    have hb : r.2.1.callbacks = registrations g.callbacks (.claimed s t :: .started s t :: r.1) :=
      ih.1
    have hbh : Heard g.callbacks (.claimed s t :: .started s t :: r.1) := by
      intro pre s' t' post he
      have hm : (.reported s' t' : Event S T) ∈ .claimed s t :: .started s t :: r.1 := by
        rw [he]; simp
      simp only [List.mem_cons, reduceCtorEq, false_or] at hm
      exact absurd rfl ((hq _ hm).2.2 s' t')
    have hbc : Closed (.claimed s t :: .started s t :: r.1) := by
      intro pre k' t' post he
      have hm : (.notified k' t' : Event S T) ∈ .claimed s t :: .started s t :: r.1 := by
        rw [he]; simp
      simp only [List.mem_cons, reduceCtorEq, false_or] at hm
      exact absurd rfl ((hq _ hm).2.1 k' t')
    split
    · exact ⟨rfl, (Quiet.nil.cons (by simp)).heard _, (Quiet.nil.cons (by simp)).closed⟩
    · split
      · exact ⟨hb, hbh, hbc⟩
      · split
        · exact ⟨hb, hbh, hbc⟩
        · have he : Heard g.callbacks ((.claimed s t :: .started s t :: r.1) ++
              r.2.1.callbacks.map (fun k => .notified k t) ++ [.reported s t]) := by
            intro pre s' t' post he
            have hnot : (.reported s' t' : Event S T) ∉ (.claimed s t :: .started s t :: r.1) ++
                r.2.1.callbacks.map (fun k => .notified k t) := by
              simp only [List.mem_append, List.mem_cons, reduceCtorEq, false_or, List.mem_map,
                and_false, exists_false, or_false]
              exact fun hm => (hq _ hm).2.2 s' t' rfl
            rcases List.append_eq_append_iff.mp he with ⟨c, hpre, hbc⟩ | ⟨c, hac, hc⟩
            · cases c with
              | nil =>
                simp only [List.nil_append, List.cons.injEq, Event.reported.injEq] at hbc
                obtain ⟨⟨rfl, rfl⟩, _⟩ := hbc
                refine ⟨[], r.1, hq, ?_⟩
                rw [hpre, List.append_nil, registrations_append, ← hb, registrations_notified]
                simp
              | cons x c => simp at hbc
            · cases c with
              | nil =>
                simp only [List.nil_append, List.cons.injEq, Event.reported.injEq] at hc
                obtain ⟨⟨rfl, rfl⟩, _⟩ := hc
                refine ⟨[], r.1, hq, ?_⟩
                rw [List.append_nil] at hac
                rw [← hac, registrations_append, ← hb, registrations_notified]
                simp
              | cons x c =>
                simp only [List.cons_append, List.cons.injEq] at hc
                obtain ⟨rfl, _⟩ := hc
                exact absurd (by rw [hac]; simp) hnot
          have hcl : Closed ((.claimed s t :: .started s t :: r.1) ++
              r.2.1.callbacks.map (fun k => .notified k t) ++ [.reported s t]) := by
            rw [List.append_assoc]
            exact hbc.append (closed_block s t _)
          have hk : r.2.1.callbacks = registrations g.callbacks
              ((.claimed s t :: .started s t :: r.1) ++
                r.2.1.callbacks.map (fun k => .notified k t) ++ [.reported s t]) := by
            rw [registrations_append, registrations_append, ← hb, registrations_notified]
            rfl
          split
          · exact ⟨hk, he, hcl⟩
          · have ih' := Evals.exec_heard s ignoreErrors rest { r.2.1 with trial := none }
            have hk' : ({ r.2.1 with trial := none } : Globals S T).callbacks = _ := hk
            rw [hk'] at ih'
            exact ⟨by rw [registrations_append]; exact ih'.1, he.append ih'.2.1,
              hcl.append ih'.2.2⟩

end

theorem session_heard : (cells : List (Code S T)) → (g : Globals S T) →
    (session g cells).2.callbacks = registrations g.callbacks (session g cells).1 ∧
    Heard g.callbacks (session g cells).1 ∧ Closed (session g cells).1
  | [], _ => ⟨rfl, Quiet.nil.heard _, Quiet.nil.closed⟩
  | c :: cs, g => by
    have ih := c.exec_heard none g
    have ih' := session_heard cs (c.exec none g).2.1
    rw [ih.1] at ih'
    simp only [session]
    exact ⟨by rw [registrations_append]; exact ih'.1, ih.2.1.append ih'.2.1,
      ih.2.2.append ih'.2.2⟩

end Neps.Proc
