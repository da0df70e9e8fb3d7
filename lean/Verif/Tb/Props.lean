import Verif.Tb.Model
import Verif.Status.Props
import Verif.Run.LineageProps

/-!
# C104: what is logged to TensorBoard
-/

namespace Neps.Tb

variable {R I : Type}

/-! ## One call -/

/-- During a call for trial `t` with arguments `a`: the class variables are those of the call, and the
writer, if it is open, is that of directory `d` with curve name `c`. -/
structure Busy (t : Trial) (a : LogArgs R I) (d c : String) (s : TB R I) : Prop where
  work : s.workDir = some t.metadata.location
  prev : s.prevDir = t.metadata.previousTrialLocation
  epoch : s.epoch = some a.epoch
  loss : s.loss = some a.loss
  config : s.config = some t.config
  writer : (s.writer = none ∧ c = baseName d) ∨ (s.writer = some d ∧ s.configId = some c)

theorem ensureWriter_busy {env : Env} {t : Trial} {a : LogArgs R I} {d c : String}
    (hd : HomeIs env t d) {s : TB R I} (h : Busy t a d c s) :
    Busy t a d c (ensureWriter env s).1 ∧ (ensureWriter env s).1.events = s.events ∧
    ((ensureWriter env s).2 = none → (ensureWriter env s).1.writer = some d ∧
      (ensureWriter env s).1.configId = some c) := by
  obtain ⟨h1, h2, h3, h4, h5, h6⟩ := h
  rcases h6 with ⟨h6, h7⟩ | ⟨h6, h7⟩
  · have e0 : ensureWriter env s = initializeWriters env s := by unfold ensureWriter; rw [h6]
    rw [e0]
    unfold HomeIs at hd
    cases hp : t.metadata.previousTrialLocation with
    | none =>
      rw [hp] at h2 hd
      simp only at hd
      subst hd
      have e : initializeWriters env s = ({ s with
          configId := some (baseName t.metadata.location), writer := some t.metadata.location,
          tbDirs := t.metadata.location :: s.tbDirs }, none) := by
        simp only [initializeWriters, h2, h1]
      rw [e]
      exact ⟨⟨h1, by rw [hp]; exact h2, h3, h4, h5, .inr ⟨rfl, by rw [h7]⟩⟩, rfl,
        fun _ => ⟨rfl, by rw [h7]⟩⟩
    | some p =>
      rw [hp] at h2 hd
      simp only at hd
      by_cases hm : d ∈ s.tbDirs
      · have e : initializeWriters env s = ({ s with
            configId := some (baseName d), writer := some d }, none) := by
          simp only [initializeWriters, h2, h1, hd, hm, if_true]
        rw [e]
        exact ⟨⟨h1, by rw [hp]; exact h2, h3, h4, h5, .inr ⟨rfl, by rw [h7]⟩⟩, rfl,
          fun _ => ⟨rfl, by rw [h7]⟩⟩
      · have e : initializeWriters env s = ({ s with configId := some (baseName d) },
            some .fileNotFound) := by
          simp only [initializeWriters, h2, h1, hd, hm, if_false]
        rw [e]
        exact ⟨⟨h1, by rw [hp]; exact h2, h3, h4, h5, .inl ⟨h6, h7⟩⟩, rfl, by simp⟩
  · have e0 : ensureWriter env s = (s, none) := by unfold ensureWriter; rw [h6]
    rw [e0]
    exact ⟨⟨h1, h2, h3, h4, h5, .inr ⟨h6, h7⟩⟩, rfl, fun _ => ⟨h6, h7⟩⟩

/-- A part of a call: it keeps `Busy` and, if it succeeds, writes `es`. -/
def Writes (t : Trial) (a : LogArgs R I) (d c : String) (es : List (Event R I)) (s : TB R I)
    (r : TB R I × Option Err) : Prop :=
  Busy t a d c r.1 ∧ (r.2 = none → r.1.events = s.events ++ es)

theorem Writes.andThen {t : Trial} {a : LogArgs R I} {d c : String} {es es' : List (Event R I)}
    {s : TB R I} {r : TB R I × Option Err} {f : TB R I → TB R I × Option Err}
    (h : Writes t a d c es s r) (hf : ∀ s', Busy t a d c s' → Writes t a d c es' s' (f s')) :
    Writes t a d c (es ++ es') s (andThen r f) := by
  obtain ⟨s', e⟩ := r
  cases e with
  | some e => exact ⟨h.1, fun h => by cases h⟩
  | none =>
    obtain ⟨i1, i2⟩ := hf s' h.1
    exact ⟨i1, fun h0 => by
      show (f s').1.events = _
      rw [i2 h0, h.2 rfl, List.append_assoc]⟩

theorem writeScalar_writes {env : Env} {t : Trial} {a : LogArgs R I} {d c : String}
    (hd : HomeIs env t d) (tag : String) (v : R) {s : TB R I} (h : Busy t a d c s) :
    Writes t a d c [⟨d, c ++ "/" ++ tag, .scalar v, a.epoch⟩] s (writeScalar env tag v s) := by
  obtain ⟨h1, h2, h3⟩ := ensureWriter_busy hd h
  unfold writeScalar
  cases hr : ensureWriter env s with
  | mk s' e =>
    rw [hr] at h1 h2 h3
    dsimp only at h1 h2 h3
    cases e with
    | some e => exact ⟨h1, by simp⟩
    | none =>
      obtain ⟨g1, g2⟩ := h3 rfl
      simp only [g1]
      obtain ⟨k1, k2, k3, k4, k5, k6⟩ := h1
      refine ⟨⟨k1, k2, k3, k4, k5, .inr ⟨rfl, g2⟩⟩, fun _ => ?_⟩
      simp only [fullTag, g2, k3, h2, Option.getD_some]

theorem writeImage_writes {env : Env} {t : Trial} {a : LogArgs R I} {d c : String}
    (hd : HomeIs env t d) (tag : String) (i : I) (n : Int) {s : TB R I} (h : Busy t a d c s) :
    Writes t a d c (if 0 ≤ a.epoch ∧ a.epoch % n = 0 then
      [⟨d, c ++ "/" ++ tag, .image i, a.epoch⟩] else []) s (writeImage env tag i n s) := by
  obtain ⟨h1, h2, h3⟩ := ensureWriter_busy hd h
  unfold writeImage
  cases hr : ensureWriter env s with
  | mk s' e =>
    rw [hr] at h1 h2 h3
    dsimp only at h1 h2 h3
    cases e with
    | some e => exact ⟨h1, by simp⟩
    | none =>
      obtain ⟨g1, g2⟩ := h3 rfl
      simp only [h1.epoch]
      by_cases hp : 0 ≤ a.epoch
      · rw [if_pos hp]
        by_cases hn : n = 0
        · rw [if_pos hn]
          exact ⟨h1, by simp⟩
        · rw [if_neg hn]
          by_cases hm : a.epoch % n = 0
          · rw [if_pos hm, if_pos ⟨hp, hm⟩]
            simp only [g1]
            obtain ⟨k1, k2, k3, k4, k5, k6⟩ := h1
            refine ⟨⟨k1, k2, rfl, k4, k5, .inr ⟨rfl, g2⟩⟩, fun _ => ?_⟩
            simp only [fullTag, g2, h2, Option.getD_some]
          · rw [if_neg hm, if_neg (fun h => hm h.2)]
            exact ⟨h1, fun _ => by rw [List.append_nil]; exact h2⟩
      · rw [if_neg hp, if_neg (fun h => hp h.1)]
        exact ⟨h1, fun _ => by rw [List.append_nil]; exact h2⟩

theorem writeHparams_writes {env : Env} {t : Trial} {a : LogArgs R I} {d c : String}
    (hd : HomeIs env t d) {s : TB R I} (h : Busy t a d c s) :
    Writes t a d c [⟨d, "Summary/Loss", .hparams t.config a.loss, a.epoch⟩] s
      (writeHparams env s) := by
  obtain ⟨h1, h2, h3⟩ := ensureWriter_busy hd h
  unfold writeHparams
  cases hr : ensureWriter env s with
  | mk s' e =>
    rw [hr] at h1 h2 h3
    dsimp only at h1 h2 h3
    cases e with
    | some e => exact ⟨h1, by simp⟩
    | none =>
      obtain ⟨g1, g2⟩ := h3 rfl
      simp only [g1, h1.config, h1.epoch, h1.loss]
      obtain ⟨k1, k2, k3, k4, k5, k6⟩ := h1
      exact ⟨⟨k1, k2, rfl, rfl, rfl, .inr ⟨rfl, g2⟩⟩, fun _ => by simp only [h2]⟩

theorem writeExtra_writes {env : Env} {t : Trial} {a : LogArgs R I} {d c : String}
    (hd : HomeIs env t d) (xs : List (String × Extra R I)) : ∀ {s : TB R I}, Busy t a d c s →
    Writes t a d c (wantedExtra d c a.epoch xs) s (writeExtra env xs s) := by
  induction xs with
  | nil => intro s h; exact ⟨h, fun _ => by simp [wantedExtra, writeExtra]⟩
  | cons p xs ih =>
    obtain ⟨k, x⟩ := p
    intro s h
    have key : ∃ es, wantedExtra d c a.epoch ((k, x) :: xs) = es ++ wantedExtra d c a.epoch xs ∧
        Writes t a d c es s (writeOne env k x s) := by
      cases x with
      | scalar v => exact ⟨_, rfl, writeScalar_writes hd k v h⟩
      | image i n =>
        refine ⟨_, ?_, writeImage_writes hd k i n h⟩
        unfold wantedExtra
        by_cases hc : 0 ≤ a.epoch ∧ a.epoch % n = 0
        · rw [if_pos hc, List.filterMap_cons_some (by simp only; rw [if_pos hc])]
          rfl
        · rw [if_neg hc, List.filterMap_cons_none (by simp only; rw [if_neg hc])]
          rfl
      | ignored => exact ⟨[], rfl, h, fun _ => by simp [writeOne]⟩
    obtain ⟨es, he, hw⟩ := key
    rw [he]
    exact hw.andThen fun s' h' => ih h'

theorem log_writes {env : Env} {t : Trial} {d c : String} (hd : HomeIs env t d) (a : LogArgs R I)
    {s : TB R I} (hs : s.disabled = false)
    (hw : (s.writer = none ∧ c = baseName d) ∨ (s.writer = some d ∧ c = t.metadata.id)) :
    Writes t a d c (wanted d c t a) s (log env (some t) a s) := by
  unfold log
  rw [if_neg (by simp [hs])]
  simp only
  have h0 : Busy t a d c (initiate env t
      { s with epoch := some a.epoch, loss := some a.loss, writeIncumbent := a.incumbent }) := by
    refine ⟨rfl, rfl, rfl, rfl, rfl, ?_⟩
    rcases hw with ⟨h1, h2⟩ | ⟨h1, h2⟩
    · exact .inl ⟨h1, h2⟩
    · exact .inr ⟨h1, by rw [h2]; rfl⟩
  have e0 : (initiate env t
      { s with epoch := some a.epoch, loss := some a.loss, writeIncumbent := a.incumbent }).events =
      s.events := rfl
  generalize initiate env t
      { s with epoch := some a.epoch, loss := some a.loss, writeIncumbent := a.incumbent } = s₀
    at h0 e0 ⊢
  have h1 : Writes t a d c (if a.scalar then [⟨d, c ++ "/Loss", .scalar a.loss, a.epoch⟩] else []) s₀
      (if a.scalar then writeScalar env "Loss" a.loss s₀ else (s₀, none)) := by
    cases a.scalar with
    | true =>
      have := writeScalar_writes hd "Loss" a.loss h0
      rw [String.append_assoc] at this
      exact this
    | false => exact ⟨h0, fun _ => by simp⟩
  have h2 : ∀ s₁, Busy t a d c s₁ → Writes t a d c
      (if a.hparam then [⟨d, "Summary/Loss", .hparams t.config a.loss, a.epoch⟩] else []) s₁
      (if a.hparam then writeHparams env s₁ else (s₁, none)) := by
    intro s₁ hb
    cases a.hparam with
    | true => exact writeHparams_writes hd hb
    | false => exact ⟨hb, fun _ => by simp⟩
  have h3 := h1.andThen fun s₁ hb => (h2 s₁ hb).andThen fun s₂ hb =>
    writeExtra_writes hd a.extra hb
  refine ⟨h3.1, fun h => ?_⟩
  rw [h3.2 h, e0]
  simp only [wanted, List.append_assoc]

/-! ## During and between the evaluations -/

/-- The writer of the trial is open or there is none. -/
def AtHome (d : String) (s : TB R I) : Prop := s.writer = none ∨ s.writer = some d

theorem log_home {env : Env} {t : Trial} {d : String} (hd : HomeIs env t d) (a : LogArgs R I)
    {s : TB R I} (h : AtHome d s) : AtHome d (log env (some t) a s).1 := by
  cases hs : s.disabled with
  | true => unfold log; rw [hs]; exact h
  | false =>
    rcases h with h | h
    · have := (log_writes hd a hs (.inl ⟨h, rfl⟩)).1.writer
      rcases this with ⟨g, -⟩ | ⟨g, -⟩
      · exact .inl g
      · exact .inr g
    · have := (log_writes hd a hs (.inr ⟨h, rfl⟩)).1.writer
      rcases this with ⟨g, -⟩ | ⟨g, -⟩
      · exact .inl g
      · exact .inr g

theorem steps_home {env : Env} {t : Trial} {d : String} (hd : HomeIs env t d) (xs : List (Step R I)) :
    ∀ {s : TB R I}, AtHome d s → AtHome d (xs.foldl (step env t) s) := by
  induction xs with
  | nil => intro s h; exact h
  | cons x xs ih =>
    intro s h
    rw [List.foldl_cons]
    apply ih
    cases x with
    | log a => exact log_home hd a h
    | disable => exact h
    | enable => exact h
    | elsewhere d => exact h

/-- What the parts of a call leave as it is. -/
structure Frame (s s' : TB R I) : Prop where
  registered : s'.registered = s.registered
  optimizerDir : s'.optimizerDir = s.optimizerDir
  summaryWriter : s'.summaryWriter = s.summaryWriter
  graph : s'.graph = s.graph
  writeIncumbent : s'.writeIncumbent = s.writeIncumbent
  disabled : s'.disabled = s.disabled

theorem Frame.rfl' {s : TB R I} : Frame s s := ⟨rfl, rfl, rfl, rfl, rfl, rfl⟩

theorem Frame.trans {s s' s'' : TB R I} (h : Frame s s') (h' : Frame s' s'') : Frame s s'' :=
  ⟨h'.1.trans h.1, h'.2.trans h.2, h'.3.trans h.3, h'.4.trans h.4, h'.5.trans h.5, h'.6.trans h.6⟩

theorem Frame.of_events {s s' : TB R I} (h : Frame s s') (es : List (Event R I)) :
    Frame s { s' with events := es } := ⟨h.1, h.2, h.3, h.4, h.5, h.6⟩

theorem ensureWriter_frame (env : Env) (s : TB R I) : Frame s (ensureWriter env s).1 := by
  unfold ensureWriter initializeWriters
  split
  · exact .rfl'
  · split
    · exact ⟨rfl, rfl, rfl, rfl, rfl, rfl⟩
    · split
      · exact .rfl'
      · simp only; split <;> exact ⟨rfl, rfl, rfl, rfl, rfl, rfl⟩
    · exact .rfl'

theorem writeScalar_frame (env : Env) (k : String) (v : R) (s : TB R I) :
    Frame s (writeScalar env k v s).1 := by
  have := ensureWriter_frame env s
  unfold writeScalar
  split
  · next h => rw [h] at this; exact this
  · next h =>
    rw [h] at this
    split
    · exact this.of_events _
    · exact this

theorem writeImage_frame (env : Env) (k : String) (i : I) (n : Int) (s : TB R I) :
    Frame s (writeImage env k i n s).1 := by
  have := ensureWriter_frame env s
  unfold writeImage
  split
  · next h => rw [h] at this; exact this
  · next h =>
    rw [h] at this
    split
    · exact this
    · split
      · split
        · exact this
        · split
          · split
            · exact this.of_events _
            · exact this
          · exact this
      · exact this

theorem writeHparams_frame (env : Env) (s : TB R I) : Frame s (writeHparams env s).1 := by
  have := ensureWriter_frame env s
  unfold writeHparams
  split
  · next h => rw [h] at this; exact this
  · next h =>
    rw [h] at this
    split
    · exact this.of_events _
    · exact this
    · exact this

theorem Frame.andThen {s : TB R I} {r : TB R I × Option Err} {f : TB R I → TB R I × Option Err}
    (h : Frame s r.1) (hf : ∀ s : TB R I, Frame s (f s).1) : Frame s (andThen r f).1 := by
  obtain ⟨s', e⟩ := r
  cases e with
  | some e => exact h
  | none => exact h.trans (hf s')

theorem writeExtra_frame (env : Env) (xs : List (String × Extra R I)) : ∀ s : TB R I,
    Frame s (writeExtra env xs s).1 := by
  induction xs with
  | nil => intro s; exact .rfl'
  | cons p xs ih =>
    obtain ⟨k, x⟩ := p
    intro s
    have h1 : Frame s (writeOne env k x s).1 := by
      cases x with
      | scalar v => exact writeScalar_frame env k v s
      | image i n => exact writeImage_frame env k i n s
      | ignored => exact .rfl'
    exact h1.andThen ih

theorem log_frame (env : Env) (t : Trial) (a : LogArgs R I) (s : TB R I) (hs : s.disabled = false) :
    Frame (initiate env t
        { s with epoch := some a.epoch, loss := some a.loss, writeIncumbent := a.incumbent })
      (log env (some t) a s).1 := by
  unfold log
  rw [if_neg (by simp [hs])]
  refine Frame.andThen ?_ fun s₁ => Frame.andThen ?_ fun s₂ => writeExtra_frame env a.extra s₂
  · split
    · exact writeScalar_frame ..
    · exact .rfl'
  · split
    · exact writeHparams_frame ..
    · exact .rfl'

theorem log_disabled (env : Env) (t : Option Trial) (a : LogArgs R I) (s : TB R I)
    (h : s.disabled = true) : log env t a s = (s, none) := by
  unfold log
  rw [h]
  rfl

/-- In a process that works on one run: without the callback no writer is open and no incumbent was
asked for, and otherwise the directory of the run is known; and the incumbent graph is in it. -/
structure OneRun (root : String) (s : TB R I) : Prop where
  closed : s.registered = false → s.writer = none
  dir : s.registered = true → s.optimizerDir = some root
  summary : s.summaryWriter = none ∨ s.summaryWriter = some root

theorem step_oneRun (env : Env) (t : Trial) {s : TB R I} (h : OneRun env.root s) (x : Step R I) :
    OneRun env.root (step env t s x) := by
  cases x with
  | log a =>
    cases hs : s.disabled with
    | true => simp only [step, log_disabled env _ a s hs]; exact h
    | false =>
      have hf := log_frame env t a s hs
      refine ⟨fun h0 => ?_, fun _ => hf.optimizerDir, ?_⟩
      · simp only [step] at h0
        rw [hf.registered] at h0
        cases h0
      · show (log env (some t) a s).1.summaryWriter = _ ∨ (log env (some t) a s).1.summaryWriter = _
        rw [hf.summaryWriter]
        exact h.summary
  | disable => exact ⟨h.1, h.2, h.3⟩
  | enable => exact ⟨h.1, h.2, h.3⟩
  | elsewhere d => exact ⟨h.1, h.2, h.3⟩

theorem steps_oneRun (env : Env) (t : Trial) (xs : List (Step R I)) : ∀ {s : TB R I},
    OneRun env.root s → OneRun env.root (xs.foldl (step env t) s) := by
  induction xs with
  | nil => intro s h; exact h
  | cons x xs ih => intro s h; exact ih (step_oneRun env t h x)

theorem endOfConfig_oneRun {root : String} (sm : Except Err (Nat × R)) {s : TB R I}
    (h : OneRun root s) (hr : s.registered = true) : OneRun root (endOfConfig sm s).1 := by
  obtain ⟨h1, h2, h3⟩ := h
  have hd := h2 hr
  unfold endOfConfig trackIncumbent
  simp only [hd]
  split
  · split
    · exact ⟨fun _ => rfl, fun _ => rfl, h3⟩
    · refine ⟨fun _ => rfl, fun _ => rfl, ?_⟩
      rcases h3 with h3 | h3 <;> simp [h3]
  · exact ⟨fun _ => rfl, fun _ => rfl, h3⟩

theorem episodes_oneRun (env : Env) (es : List (Episode R I)) : ∀ {s : TB R I}, OneRun env.root s →
    OneRun env.root (episodes env s es).1 := by
  induction es with
  | nil => intro s h; exact h
  | cons e es ih =>
    intro s h
    have h1 : OneRun env.root (episode env s e).1 := by
      unfold episode
      simp only
      have h2 := steps_oneRun env e.trial e.steps h
      split
      · next hr => exact endOfConfig_oneRun _ h2 hr
      · exact h2
    unfold episodes
    cases hr : episode env s e with
    | mk s' err =>
      rw [hr] at h1
      cases err with
      | some err => exact h1
      | none => exact ih h1

theorem oneRun_init (root : String) : OneRun root ({} : TB R I) :=
  ⟨fun _ => rfl, fun h => (by cases h), .inl rfl⟩

theorem endOfConfig_writer (sm : Except Err (Nat × R)) (s : TB R I) :
    (endOfConfig sm s).1.writer = none := by
  unfold endOfConfig trackIncumbent
  simp only
  split
  · split
    · rfl
    · split <;> rfl
  · rfl

theorem steps_writer (env : Env) (t : Trial) (xs : List (Step R I)) : ∀ {s : TB R I},
    (s.registered = false → s.writer = none) →
    (xs.foldl (step env t) s).registered = false → (xs.foldl (step env t) s).writer = none := by
  induction xs with
  | nil => intro s h; exact h
  | cons x xs ih =>
    intro s h
    rw [List.foldl_cons]
    apply ih
    cases x with
    | log a =>
      cases hs : s.disabled with
      | true => simp only [step, log_disabled env _ a s hs]; exact h
      | false =>
        intro h0
        simp only [step] at h0
        rw [(log_frame env t a s hs).registered] at h0
        cases h0
    | disable => exact h
    | enable => exact h
    | elsewhere d => exact h

theorem episode_writer (env : Env) (s : TB R I) (h : s.writer = none) (e : Episode R I) :
    (episode env s e).1.writer = none := by
  unfold episode
  simp only
  split
  · exact endOfConfig_writer _ _
  · next hr => exact steps_writer env e.trial e.steps (fun _ => h) (by simpa using hr)

theorem episodes_writer (env : Env) (es : List (Episode R I)) : ∀ s : TB R I, s.writer = none →
    (episodes env s es).1.writer = none := by
  induction es with
  | nil => intro s h; exact h
  | cons e es ih =>
    intro s h
    have h1 := episode_writer env s h e
    unfold episodes
    cases hr : episode env s e with
    | mk s' err =>
      rw [hr] at h1
      cases err with
      | some err => exact h1
      | none => exact ih s' h1

/-- **C104**: in every process, after any evaluations and any other steps of the objective, a call of
`log` that returns has written exactly what it was asked to write, at the end of the log of the first
trial of the lineage of the trial that is being evaluated. Missing: the curves do not have one name
(`C104_names_fails`). -/
theorem C104_log_partial (env : Env) (past : List (Episode R I)) (s : TB R I)
    (hs : episodes env {} past = (s, none)) (t : Trial) (d : String) (hd : HomeIs env t d)
    (before : List (Step R I)) (a : LogArgs R I) (s' : TB R I)
    (hs' : before.foldl (step env t) s = s') (hen : s'.disabled = false)
    (hok : (log env (some t) a s').2 = none) :
    ∃ curve, (curve = baseName d ∨ curve = t.metadata.id) ∧
      (log env (some t) a s').1.events = s'.events ++ wanted d curve t a := by
  have h0 : s.writer = none := by
    have := episodes_writer env past ({} : TB R I) rfl
    rw [hs] at this
    exact this
  have h1 := steps_home hd before (s := s) (.inl h0)
  rw [hs'] at h1
  rcases h1 with h1 | h1
  · exact ⟨_, .inl rfl, (log_writes hd a hen (.inl ⟨h1, rfl⟩)).2 hok⟩
  · exact ⟨_, .inr rfl, (log_writes hd a hen (.inr ⟨h1, rfl⟩)).2 hok⟩

/-! ## When a call succeeds -/

/-- The log of the trial can be opened: the trial is the first one of its lineage, or the first one has
logged something. -/
def CanOpen (t : Trial) (d : String) (s : TB R I) : Prop :=
  t.metadata.previousTrialLocation = none ∨ d ∈ s.tbDirs

/-- A part of a call that succeeds. -/
def Goes (t : Trial) (d : String) (r : TB R I × Option Err) : Prop := r.2 = none ∧ CanOpen t d r.1

theorem ensureWriter_goes {env : Env} {t : Trial} {a : LogArgs R I} {d c : String}
    (hd : HomeIs env t d) {s : TB R I} (h : Busy t a d c s) (hc : CanOpen t d s) :
    Goes t d (ensureWriter env s) := by
  obtain ⟨h1, h2, h3, h4, h5, h6⟩ := h
  rcases h6 with ⟨h6, h7⟩ | ⟨h6, h7⟩
  · have e0 : ensureWriter env s = initializeWriters env s := by unfold ensureWriter; rw [h6]
    rw [e0]
    unfold HomeIs at hd
    cases hp : t.metadata.previousTrialLocation with
    | none =>
      rw [hp] at h2
      have e : initializeWriters env s = ({ s with
          configId := some (baseName t.metadata.location), writer := some t.metadata.location,
          tbDirs := t.metadata.location :: s.tbDirs }, none) := by
        simp only [initializeWriters, h2, h1]
      rw [e]
      exact ⟨rfl, .inl hp⟩
    | some p =>
      rw [hp] at h2 hd
      simp only at hd
      have hm : d ∈ s.tbDirs := by
        rcases hc with h | h
        · rw [hp] at h; cases h
        · exact h
      have e : initializeWriters env s = ({ s with
          configId := some (baseName d), writer := some d }, none) := by
        simp only [initializeWriters, h2, h1, hd, hm, if_true]
      rw [e]
      exact ⟨rfl, .inr hm⟩
  · have e0 : ensureWriter env s = (s, none) := by unfold ensureWriter; rw [h6]
    rw [e0]
    exact ⟨rfl, hc⟩

theorem writeScalar_goes {env : Env} {t : Trial} {a : LogArgs R I} {d c : String}
    (hd : HomeIs env t d) (tag : String) (v : R) {s : TB R I} (h : Busy t a d c s)
    (hc : CanOpen t d s) : Goes t d (writeScalar env tag v s) := by
  obtain ⟨h1, h2, h3⟩ := ensureWriter_busy hd h
  obtain ⟨g1, g2⟩ := ensureWriter_goes hd h hc
  unfold writeScalar
  cases hr : ensureWriter env s with
  | mk s' e =>
    rw [hr] at h3 g1 g2
    dsimp only at h3 g1 g2
    subst g1
    obtain ⟨k1, k2⟩ := h3 rfl
    simp only [k1]
    exact ⟨rfl, g2⟩

theorem writeHparams_goes {env : Env} {t : Trial} {a : LogArgs R I} {d c : String}
    (hd : HomeIs env t d) {s : TB R I} (h : Busy t a d c s)
    (hc : CanOpen t d s) : Goes t d (writeHparams env s) := by
  obtain ⟨h1, h2, h3⟩ := ensureWriter_busy hd h
  obtain ⟨g1, g2⟩ := ensureWriter_goes hd h hc
  unfold writeHparams
  cases hr : ensureWriter env s with
  | mk s' e =>
    rw [hr] at h1 h3 g1 g2
    dsimp only at h1 h3 g1 g2
    subst g1
    obtain ⟨k1, k2⟩ := h3 rfl
    simp only [k1, h1.config, h1.epoch, h1.loss]
    exact ⟨rfl, g2⟩

theorem writeImage_goes {env : Env} {t : Trial} {a : LogArgs R I} {d c : String}
    (hd : HomeIs env t d) (tag : String) (i : I) (n : Int) (hn : n ≠ 0) {s : TB R I}
    (h : Busy t a d c s) (hc : CanOpen t d s) : Goes t d (writeImage env tag i n s) := by
  obtain ⟨h1, h2, h3⟩ := ensureWriter_busy hd h
  obtain ⟨g1, g2⟩ := ensureWriter_goes hd h hc
  unfold writeImage
  cases hr : ensureWriter env s with
  | mk s' e =>
    rw [hr] at h1 h3 g1 g2
    dsimp only at h1 h3 g1 g2
    subst g1
    obtain ⟨k1, k2⟩ := h3 rfl
    simp only [h1.epoch]
    by_cases hp : 0 ≤ a.epoch
    · rw [if_pos hp, if_neg hn]
      by_cases hm : a.epoch % n = 0
      · rw [if_pos hm]
        simp only [k1]
        exact ⟨rfl, g2⟩
      · rw [if_neg hm]
        exact ⟨rfl, g2⟩
    · rw [if_neg hp]
      exact ⟨rfl, g2⟩

theorem Goes.andThen {t : Trial} {d : String} {r : TB R I × Option Err}
    {f : TB R I → TB R I × Option Err} (h : Goes t d r) (hf : CanOpen t d r.1 → Goes t d (f r.1)) :
    Goes t d (andThen r f) := by
  obtain ⟨s', e⟩ := r
  obtain ⟨h1, h2⟩ := h
  dsimp only at h1 h2
  subst h1
  exact hf h2

theorem writeExtra_goes {env : Env} {t : Trial} {a : LogArgs R I} {d c : String}
    (hd : HomeIs env t d) (xs : List (String × Extra R I)) (hn : ∀ k i, (k, Extra.image i 0) ∉ xs) :
    ∀ {s : TB R I}, Busy t a d c s → CanOpen t d s → Goes t d (writeExtra env xs s) := by
  induction xs with
  | nil => intro s h hc; exact ⟨rfl, hc⟩
  | cons p xs ih =>
    obtain ⟨k, x⟩ := p
    intro s h hc
    have ih : ∀ {s : TB R I}, Busy t a d c s → CanOpen t d s → Goes t d (writeExtra env xs s) :=
      ih fun k i hk => hn k i (List.mem_cons_of_mem _ hk)
    unfold writeExtra
    cases x with
    | scalar v =>
      exact Goes.andThen (writeScalar_goes hd k v h hc) fun hc' => ih (writeScalar_writes hd k v h).1 hc'
    | image i n =>
      have hn0 : n ≠ 0 := by rintro rfl; exact hn k i List.mem_cons_self
      exact Goes.andThen (writeImage_goes hd k i n hn0 h hc) fun hc' =>
        ih (writeImage_writes hd k i n h).1 hc'
    | ignored => exact Goes.andThen ⟨rfl, hc⟩ fun hc' => ih h hc'

/-- **C104**: a call of `log` returns, so what it writes is what `C104_log_partial` says, if the trial is
the first one of its lineage or the first one has logged something; `0` is not a number of epochs between
two images. -/
theorem C104_returns (env : Env) (past : List (Episode R I)) (s : TB R I)
    (hs : episodes env {} past = (s, none)) (t : Trial) (d : String) (hd : HomeIs env t d)
    (before : List (Step R I)) (a : LogArgs R I) (s' : TB R I)
    (hs' : before.foldl (step env t) s = s')
    (hopen : t.metadata.previousTrialLocation = none ∨ d ∈ s'.tbDirs)
    (hn : ∀ k i, (k, Extra.image i 0) ∉ a.extra) : (log env (some t) a s').2 = none := by
  cases hen : s'.disabled with
  | true => rw [log_disabled env _ a s' hen]
  | false =>
    have h0 : s.writer = none := by
      have := episodes_writer env past ({} : TB R I) rfl
      rw [hs] at this
      exact this
    have h1 := steps_home hd before (s := s) (.inl h0)
    rw [hs'] at h1
    have hb : ∃ c, Busy t a d c (initiate env t
        { s' with epoch := some a.epoch, loss := some a.loss, writeIncumbent := a.incumbent }) := by
      rcases h1 with h1 | h1
      · exact ⟨_, rfl, rfl, rfl, rfl, rfl, .inl ⟨h1, rfl⟩⟩
      · exact ⟨_, rfl, rfl, rfl, rfl, rfl, .inr ⟨h1, rfl⟩⟩
    have hc : CanOpen t d (initiate env t
        { s' with epoch := some a.epoch, loss := some a.loss, writeIncumbent := a.incumbent }) := hopen
    obtain ⟨c, hb⟩ := hb
    unfold log
    rw [if_neg (by simp [hen])]
    simp only
    generalize initiate env t
      { s' with epoch := some a.epoch, loss := some a.loss, writeIncumbent := a.incumbent } = s₀
      at hb hc ⊢
    have g1 : Goes t d (if a.scalar then writeScalar env "Loss" a.loss s₀ else (s₀, none)) ∧
        Busy t a d c (if a.scalar then writeScalar env "Loss" a.loss s₀ else (s₀, none)).1 := by
      split
      · exact ⟨writeScalar_goes hd _ _ hb hc, (writeScalar_writes hd _ _ hb).1⟩
      · exact ⟨⟨rfl, hc⟩, hb⟩
    have g2 : ∀ s₁ : TB R I, Busy t a d c s₁ → CanOpen t d s₁ →
        Goes t d (if a.hparam then writeHparams env s₁ else (s₁, none)) ∧
        Busy t a d c (if a.hparam then writeHparams env s₁ else (s₁, none)).1 := by
      intro s₁ hb₁ hc₁
      split
      · exact ⟨writeHparams_goes hd hb₁ hc₁, (writeHparams_writes hd hb₁).1⟩
      · exact ⟨⟨rfl, hc₁⟩, hb₁⟩
    exact (Goes.andThen g1.1 fun hc₁ => Goes.andThen (g2 _ g1.2 hc₁).1 fun hc₂ =>
      writeExtra_goes hd a.extra hn (g2 _ g1.2 hc₁).2 hc₂).1

/-- The second trial of a lineage logs into the log of the first one; if that logged nothing, the call
raises. -/
example :
    let env : Env := ⟨"/run", fun _ => .ok "/run/configs/config_1_0"⟩
    let t := Trial.new "1_0" [] "/run/configs/config_1_0" none none (.num 0) "w"
    let u := Trial.new "1_1" [] "/run/configs/config_1_1" (some "1_0") (some "/run/configs/config_1_0")
      (.num 0) "w"
    let a : LogArgs ℕ Unit := { loss := 3, epoch := 1, hparam := false }
    HomeIs env u "/run/configs/config_1_0" ∧
    (episodes env {} [⟨t, [.log a], .ok (0, 7)⟩]).2 = none ∧
    ((log env (some u) { a with epoch := 2 }
        (episodes env {} [⟨t, [.log a], .ok (0, 7)⟩]).1).1.events.map fun e => (e.dir, e.tag, e.step)) =
      [("/run/configs/config_1_0", "config_1_0/Loss", 1),
       ("/run/configs/config_1_0", "config_1_0/Loss", 2)] ∧
    (log env (some u) a (episodes env {} [⟨t, [], .ok (0, 7)⟩]).1).2 = some .fileNotFound :=
  ⟨rfl, by decide +kernel, by decide +kernel, by decide +kernel⟩

/-- **C104**: nothing is written while logging is disabled. -/
theorem C104_disabled (env : Env) (t : Option Trial) (a : LogArgs R I) (s : TB R I)
    (h : s.disabled = true) : log env t a s = (s, none) :=
  log_disabled env t a s h

/-- The last switch among the steps, if any: `true` for `disable`, `false` for `enable`. -/
def lastSwitch (xs : List (Step R I)) : Option Bool :=
  (xs.filterMap fun x => match x with
    | .disable => some true
    | .enable => some false
    | _ => none).getLast?

/-- **C104**, the switch: the logger is disabled exactly if the last call of `disable` or `enable`
was `disable`; without such a call it stays as it was. -/
theorem C104_switch (env : Env) (t : Trial) (xs : List (Step R I)) (s : TB R I) :
    (xs.foldl (step env t) s).disabled = (lastSwitch xs).getD s.disabled := by
  induction xs generalizing s with
  | nil => rfl
  | cons x xs ih =>
    rw [List.foldl_cons, ih]
    have hlog : ∀ a, (log env (some t) a s).1.disabled = s.disabled := by
      intro a
      cases hs : s.disabled with
      | true => rw [log_disabled env _ a s hs, hs]
      | false => exact (log_frame env t a s hs).disabled.trans hs
    cases x with
    | log a => simp only [step, hlog, lastSwitch, List.filterMap_cons]
    | elsewhere d => simp only [step, lastSwitch, List.filterMap_cons]
    | disable =>
      simp only [step, lastSwitch, List.filterMap_cons, List.getLast?_cons, Option.getD_some]
    | enable =>
      simp only [step, lastSwitch, List.filterMap_cons, List.getLast?_cons, Option.getD_some]

/-- A call after `disable` and `enable` is made by an enabled logger. -/
example (env : Env) (t : Trial) (a : LogArgs R I) (s : TB R I) :
    ([.disable, .log a, .enable].foldl (step env t) s).disabled = false := by
  rw [C104_switch]; rfl

theorem baseName_config (p id : String) (h : '/' ∉ id.toList) :
    baseName (p ++ "/config_" ++ id) = "config_" ++ id := by
  unfold baseName
  apply String.toList_injective
  rw [String.toList_ofList, String.toList_append, String.toList_append, String.toList_append]
  have hrev : (p.toList ++ "/config_".toList ++ id.toList).reverse =
      (id.toList.reverse ++ "config_".toList.reverse) ++ '/' :: p.toList.reverse := by
    have : "/config_".toList = '/' :: "config_".toList := rfl
    rw [this]
    simp only [List.reverse_append, List.reverse_cons, List.append_assoc, List.singleton_append]
  rw [hrev, List.takeWhile_append_of_pos]
  · simp only [List.takeWhile_cons, ne_eq, not_true_eq_false, decide_false, Bool.false_eq_true, if_false,
      List.append_nil, List.reverse_append, List.reverse_reverse]
  · intro c hc
    rw [List.mem_append, List.mem_reverse, List.mem_reverse] at hc
    simp only [ne_eq, decide_eq_true_eq]
    rintro rfl
    rcases hc with hc | hc
    · exact h hc
    · exact absurd hc (by decide)

/-- A trial of a run that continues no other. -/
def FirstTrial (root : String) (t : Trial) : Prop :=
  t.metadata.location = root ++ "/configs" ++ "/config_" ++ t.metadata.id ∧
  t.metadata.previousTrialLocation = none ∧ '/' ∉ t.metadata.id.toList

/-- **C104 fails**: the losses of one trial are not one curve. In every process, the first call for a
trial writes the loss under `config_<id>/Loss`, and the next one under `<id>/Loss`. -/
theorem C104_names_fails (env : Env) (past : List (Episode R I)) (s : TB R I)
    (hs : episodes env {} past = (s, none)) (t : Trial) (ht : FirstTrial env.root t) (l l' : R)
    (n n' : Int) (hen : s.disabled = false) :
    let s' := [Step.log { loss := l, epoch := n, hparam := false },
      Step.log { loss := l', epoch := n', hparam := false }].foldl (step env t) s
    s'.events = s.events ++
      [⟨t.metadata.location, "config_" ++ t.metadata.id ++ "/Loss", .scalar l, n⟩,
       ⟨t.metadata.location, t.metadata.id ++ "/Loss", .scalar l', n'⟩] ∧
    "config_" ++ t.metadata.id ++ "/Loss" ≠ t.metadata.id ++ "/Loss" := by
  obtain ⟨hloc, hprev, hid⟩ := ht
  have h0 : s.writer = none := by
    have := episodes_writer env past ({} : TB R I) rfl
    rw [hs] at this
    exact this
  have hb : baseName t.metadata.location = "config_" ++ t.metadata.id := by
    rw [hloc]; exact baseName_config _ _ hid
  refine ⟨?_, ?_⟩
  · simp only [List.foldl_cons, List.foldl_nil, step, log, hen, Bool.false_eq_true, if_false, if_true,
      initiate, andThen, writeScalar, ensureWriter, h0, initializeWriters, hprev, writeExtra, fullTag,
      Option.getD_some, hb, List.append_assoc, List.cons_append, List.nil_append, String.append_assoc]
    rfl
  · intro h
    have := congrArg String.length h
    simp only [String.length_append] at this
    have h7 : "config_".length = 7 := by decide
    omega

/-- **C104 fails** for a trial that continues another if the first trial of its lineage logged nothing:
every call that has something to write raises. -/
theorem C104_first_logged_nothing_fails (env : Env) (past : List (Episode R I)) (s : TB R I)
    (hs : episodes env {} past = (s, none)) (t : Trial) (d p : String)
    (hp : t.metadata.previousTrialLocation = some p)
    (hd : env.initialDir t.metadata.location = .ok d) (hn : d ∉ s.tbDirs) (hen : s.disabled = false)
    (a : LogArgs R I) (ha : Opens a) :
    (log env (some t) a s).2 = some .fileNotFound ∧ (log env (some t) a s).1.events = s.events := by
  have h0 : s.writer = none := by
    have := episodes_writer env past ({} : TB R I) rfl
    rw [hs] at this
    exact this
  have hens : ∀ s₀ : TB R I, s₀.writer = none → s₀.prevDir = some p →
      s₀.workDir = some t.metadata.location → d ∉ s₀.tbDirs →
      ensureWriter env s₀ = ({ s₀ with configId := some (baseName d) }, some .fileNotFound) := by
    intro s₀ g1 g2 g3 g4
    simp only [ensureWriter, g1, initializeWriters, g2, g3, hd]
    rw [if_neg g4]
  unfold log
  rw [if_neg (by simp [hen])]
  simp only
  have k1 : (initiate env t
      { s with epoch := some a.epoch, loss := some a.loss, writeIncumbent := a.incumbent }).writer =
      none := h0
  have k2 : (initiate env t
      { s with epoch := some a.epoch, loss := some a.loss, writeIncumbent := a.incumbent }).prevDir =
      some p := hp
  have k3 : (initiate env t
      { s with epoch := some a.epoch, loss := some a.loss, writeIncumbent := a.incumbent }).workDir =
      some t.metadata.location := rfl
  have k4 : d ∉ (initiate env t
      { s with epoch := some a.epoch, loss := some a.loss, writeIncumbent := a.incumbent }).tbDirs := hn
  have k5 : (initiate env t
      { s with epoch := some a.epoch, loss := some a.loss, writeIncumbent := a.incumbent }).events =
      s.events := rfl
  generalize initiate env t
      { s with epoch := some a.epoch, loss := some a.loss, writeIncumbent := a.incumbent } = s₀
    at k1 k2 k3 k4 k5 ⊢
  have e := hens s₀ k1 k2 k3 k4
  have es : ∀ (k : String) (v : R), writeScalar env k v s₀ =
      ({ s₀ with configId := some (baseName d) }, some .fileNotFound) := by
    intro k v; simp only [writeScalar, e]
  have ei : ∀ (k : String) (i : I) (n : Int), writeImage env k i n s₀ =
      ({ s₀ with configId := some (baseName d) }, some .fileNotFound) := by
    intro k i n; simp only [writeImage, e]
  have eh : writeHparams env s₀ =
      ({ s₀ with configId := some (baseName d) }, some .fileNotFound) := by
    simp only [writeHparams, e]
  by_cases hsc : a.scalar = true
  · rw [if_pos hsc, es]
    exact ⟨rfl, k5⟩
  · rw [if_neg hsc]
    show (andThen (if a.hparam then writeHparams env s₀ else (s₀, none)) _).2 = _ ∧
      (andThen (if a.hparam then writeHparams env s₀ else (s₀, none)) _).1.events = _
    by_cases hhp : a.hparam = true
    · rw [if_pos hhp, eh]
      exact ⟨rfl, k5⟩
    · rw [if_neg hhp]
      show (writeExtra env a.extra s₀).2 = _ ∧ (writeExtra env a.extra s₀).1.events = _
      have hex : ∃ k x, (k, x) ∈ a.extra ∧ x ≠ Extra.ignored := by
        rcases ha with h | h | h
        · exact absurd h hsc
        · exact absurd h hhp
        · exact h
      generalize a.extra = xs at hex
      induction xs with
      | nil => obtain ⟨k, x, h, -⟩ := hex; simp at h
      | cons q xs ih =>
        obtain ⟨k, x⟩ := q
        unfold writeExtra
        cases x with
        | scalar v => rw [show writeOne env k (.scalar v) s₀ = _ from es k v]; exact ⟨rfl, k5⟩
        | image i n => rw [show writeOne env k (.image i n) s₀ = _ from ei k i n]; exact ⟨rfl, k5⟩
        | ignored =>
          apply ih
          obtain ⟨k', x', h, h'⟩ := hex
          rcases List.mem_cons.1 h with h | h
          · simp only [Prod.mk.injEq] at h; exact absurd h.2 h'
          · exact ⟨k', x', h, h'⟩

/-! ## The incumbent graph -/

/-- **C104, the incumbent graph**: if the last call of `log` in an evaluation asks for it, the end of the
evaluation adds one point to the graph of the run: the number of evaluated trials and the best loss, as
the summary of the run gives them (see C40). Missing: the evaluation that ends is not among them
(`C104_own_result_fails`). -/
theorem C104_incumbent_partial (env : Env) (past : List (Episode R I)) (s : TB R I)
    (hs : episodes env {} past = (s, none)) (t : Trial) (before : List (Step R I)) (a : LogArgs R I)
    (hen : (before.foldl (step env t) s).disabled = false) (ha : a.incumbent = true) (n : Nat)
    (best : R) :
    (episode env s ⟨t, before ++ [.log a], .ok (n, best)⟩).2 = none ∧
    (episode env s ⟨t, before ++ [.log a], .ok (n, best)⟩).1.graph =
      (before.foldl (step env t) s).graph ++ [(env.root, n, best)] := by
  have h0 : OneRun env.root s := by
    have := episodes_oneRun env past (oneRun_init (R := R) (I := I) env.root)
    rw [hs] at this
    exact this
  have h1 := steps_oneRun env t before h0
  have hf := log_frame env t a _ hen
  have h2 := step_oneRun env t h1 (.log a)
  generalize hb : before.foldl (step env t) s = s₁ at hen h1 hf h2 ⊢
  simp only [step] at h2
  unfold episode
  simp only [List.foldl_append, List.foldl_cons, List.foldl_nil, hb]
  show (if (log env (some t) a s₁).1.registered then _ else _ : TB R I × Option Err).2 = _ ∧
    (if (log env (some t) a s₁).1.registered then _ else _ : TB R I × Option Err).1.graph = _
  have hr : (log env (some t) a s₁).1.registered = true := hf.registered
  have hi : (log env (some t) a s₁).1.writeIncumbent = true := hf.writeIncumbent.trans ha
  have hd : (log env (some t) a s₁).1.optimizerDir = some env.root := hf.optimizerDir
  have hg : (log env (some t) a s₁).1.graph = s₁.graph := hf.graph
  have hsu := h2.summary
  simp only [hr, if_true, step]
  generalize (log env (some t) a s₁).1 = s₂ at hr hi hd hg hsu ⊢
  unfold endOfConfig trackIncumbent
  simp only [hi, if_true, hd]
  refine ⟨trivial, ?_⟩
  rcases hsu with h | h <;> simp [h, hg]

/-- A run, its first trial, and a call that asks for the incumbent graph. -/
example :
    let env : Env := ⟨"/run", fun _ => .error .other⟩
    let t := Trial.new "1" [] "/run/configs/config_1" none none (.num 0) "w"
    let a : LogArgs ℕ Unit := { loss := 3, epoch := 1, incumbent := true }
    (episode env {} ⟨t, [.log a, .log { a with epoch := 2 }], .ok (0, 7)⟩).1.graph = [("/run", 0, 7)] ∧
    ((episode env {} ⟨t, [.log a, .log { a with epoch := 2 }], .ok (0, 7)⟩).1.events.map
      fun e => (e.dir, e.tag, e.step)) =
      [("/run/configs/config_1", "config_1/Loss", 1), ("/run/configs/config_1", "Summary/Loss", 1),
       ("/run/configs/config_1", "1/Loss", 2), ("/run/configs/config_1", "Summary/Loss", 2)] :=
  ⟨by decide +kernel, by decide +kernel⟩

open Neps.Run Neps.Status in
/-- **C104 fails**: the point is computed before the result of the evaluation that ends is stored. When
the only worker has evaluated its first trial, with loss 1, the summary the graph gets is that of zero
evaluated trials with the best loss infinity; the summary after the report is that of one trial with best
loss 1. -/
theorem C104_own_result_fails :
    let W := run noFloat free {} (go 0 5 (propose "1"))
    let W' := run noFloat free W (go 0 3 (propose "1"))
    evaluating (W.worker 0).pc = some "1" ∧
    ((allTrials W ["1"]).bind fun ts => (summarize noFloat ts).toOption.map
      fun s => (s.numEvaluated, s.bestLoss)) = some (0, .pinf) ∧
    ((allTrials W' ["1"]).bind fun ts => (summarize noFloat ts).toOption.map
      fun s => (s.numEvaluated, s.bestLoss)) = some (1, .num 1) := by
  decide +kernel

/-- **C104 fails** for the second run of a process: its points are added to the incumbent graph of the
first run. -/
theorem C104_second_run_fails (env env' : Env) (t t' : Trial) (a a' : LogArgs R I)
    (ha : a.incumbent = true) (ha' : a'.incumbent = true) (n n' : Nat) (best best' : R) :
    ∃ s, episode env {} ⟨t, [.log a], .ok (n, best)⟩ = (s, none) ∧
      (episode env' s ⟨t', [.log a'], .ok (n', best')⟩).1.graph =
        [(env.root, n, best), (env.root, n', best')] := by
  obtain ⟨h1, h2⟩ := C104_incumbent_partial env [] ({} : TB R I) rfl t [] a rfl ha n best
  simp only [List.foldl_nil, List.nil_append] at h1 h2
  refine ⟨(episode env {} ⟨t, [.log a], .ok (n, best)⟩).1, by rw [← h1], ?_⟩
  have hf := log_frame env t a ({} : TB R I) rfl
  have hs : (episode env ({} : TB R I) ⟨t, [.log a], .ok (n, best)⟩).1.summaryWriter = some env.root ∧
      (episode env ({} : TB R I) ⟨t, [.log a], .ok (n, best)⟩).1.disabled = false := by
    unfold episode
    simp only [List.foldl_cons, List.foldl_nil, step]
    have hr : (log env (some t) a ({} : TB R I)).1.registered = true := hf.registered
    have hi : (log env (some t) a ({} : TB R I)).1.writeIncumbent = true := hf.writeIncumbent.trans ha
    have hd : (log env (some t) a ({} : TB R I)).1.optimizerDir = some env.root := hf.optimizerDir
    have hsu : (log env (some t) a ({} : TB R I)).1.summaryWriter = none := hf.summaryWriter
    have hdi : (log env (some t) a ({} : TB R I)).1.disabled = false := hf.disabled
    simp only [hr, if_true]
    generalize (log env (some t) a ({} : TB R I)).1 = s₂ at hr hi hd hsu hdi ⊢
    unfold endOfConfig trackIncumbent
    simp only [hi, if_true, hd, hsu, hdi]
    exact ⟨trivial, trivial⟩
  generalize (episode env ({} : TB R I) ⟨t, [.log a], .ok (n, best)⟩).1 = s at h2 hs ⊢
  obtain ⟨hs1, hs2⟩ := hs
  have hf' := log_frame env' t' a' s hs2
  unfold episode
  simp only [List.foldl_cons, List.foldl_nil, step]
  have hr : (log env' (some t') a' s).1.registered = true := hf'.registered
  have hi : (log env' (some t') a' s).1.writeIncumbent = true := hf'.writeIncumbent.trans ha'
  have hd : (log env' (some t') a' s).1.optimizerDir = some env'.root := hf'.optimizerDir
  have hsu : (log env' (some t') a' s).1.summaryWriter = some env.root := hf'.summaryWriter.trans hs1
  have hg : (log env' (some t') a' s).1.graph = [(env.root, n, best)] := hf'.graph.trans h2
  simp only [hr, if_true]
  generalize (log env' (some t') a' s).1 = s₂ at hr hi hd hsu hg ⊢
  unfold endOfConfig trackIncumbent
  simp only [hi, if_true, hd, hsu, hg]
  rfl

end Neps.Tb
