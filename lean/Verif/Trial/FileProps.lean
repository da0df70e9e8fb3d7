import Verif.Trial.Props

/-!
# C18, C50 – C52: directory names, error log file, interrupted and refused trial writes
-/

namespace Neps

/-! ### C18: trial ids and directory names -/

theorem removeAll_skip (p s : List Char) : removeAll p s.length s = [] := by
  induction s with
  | nil => simp [removeAll]
  | cons c s ih => simp [removeAll, ih]

theorem removeAll_skip_append (p a b : List Char) :
    removeAll p a.length (a ++ b) = removeAll p 0 b := by
  induction a with
  | nil => rfl
  | cons c a ih => simp [removeAll, ih]

theorem removeAll_length_le (p : List Char) (k : Nat) (s : List Char) :
    (removeAll p k s).length ≤ s.length := by
  induction s generalizing k with
  | nil => simp [removeAll]
  | cons c s ih =>
    cases k with
    | zero =>
      simp only [removeAll]
      split
      · have := ih (p.length - 1); simp; omega
      · have := ih 0; simp; omega
    | succ k => have := ih k; simp [removeAll]; omega

/-- Without an occurrence nothing is removed. -/
theorem removeAll_of_not_infix (p s : List Char) (h : ¬ p <:+: s) : removeAll p 0 s = s := by
  induction s with
  | nil => rfl
  | cons c s ih =>
    have h1 : p.isPrefixOf (c :: s) = false := by
      cases hp : p.isPrefixOf (c :: s) with
      | false => rfl
      | true => exact absurd (List.isPrefixOf_iff_prefix.1 hp).isInfix h
    have h2 : ¬ p <:+: s := fun hs => h (hs.trans (List.suffix_cons c s).isInfix)
    simp [removeAll, h1, ih h2]

/-- With an occurrence the result is shorter. -/
theorem removeAll_lt_of_infix (p s : List Char) (hp : p ≠ []) (h : p <:+: s) :
    (removeAll p 0 s).length < s.length := by
  induction s with
  | nil =>
    simp only [List.infix_nil] at h
    exact absurd h hp
  | cons c s ih =>
    simp only [removeAll]
    split
    · have := removeAll_length_le p (p.length - 1) s
      simp; omega
    · next hn =>
      have : p <:+: s := by
        rw [List.infix_cons_iff] at h
        rcases h with h | h
        · exact absurd (List.isPrefixOf_iff_prefix.2 h) hn
        · exact h
      have := ih this
      simpa using this

theorem removeAll_dirName (id : List Char) :
    removeAll cfgPrefix 0 (dirName id) = removeAll cfgPrefix 0 id := by
  have h : cfgPrefix.isPrefixOf (cfgPrefix ++ id) = true :=
    List.isPrefixOf_iff_prefix.2 (List.prefix_append _ _)
  have := removeAll_skip_append cfgPrefix ['o', 'n', 'f', 'i', 'g', '_'] id
  simp only [dirName]
  have hc : cfgPrefix ++ id = 'c' :: (['o', 'n', 'f', 'i', 'g', '_'] ++ id) := rfl
  rw [hc] at h ⊢
  simp only [removeAll, h, if_true]
  exact this

/-- **C18, exactly when.** A trial id survives the directory naming exactly if it does not contain
`config_`. -/
theorem C18_id_survives_iff (id : List Char) :
    removeAll cfgPrefix 0 (dirName id) = id ↔ ¬ cfgPrefix <:+: id := by
  rw [removeAll_dirName]
  constructor
  · intro h hi
    have := removeAll_lt_of_infix cfgPrefix id (by decide) hi
    rw [h] at this
    omega
  · exact removeAll_of_not_infix _ _

/-- **C18, partial.** If the directory holds the trial directories of `ids` in any order, together
with any files, and any directories whose name does not start with `config_`, then the ids
listed are exactly `ids` — provided no id contains `config_`. Missing: ids containing `config_`,
for which it is false (`C18_infix_fails`). -/
theorem C18_listed_ids_partial (ids : List (List Char)) (others entries : List Entry)
    (hids : ∀ id ∈ ids, ¬ cfgPrefix <:+: id)
    (hothers : ∀ e ∈ others, e.isDir = false ∨ ¬ cfgPrefix <+: e.name)
    (hperm : entries.Perm (ids.map (fun id => ⟨dirName id, true⟩) ++ others)) :
    (allTrialIds entries).Perm ids := by
  unfold allTrialIds
  refine ((hperm.filter _).map _).trans ?_
  rw [List.filter_append, List.map_append]
  have h1 : others.filter (fun e => cfgPrefix.isPrefixOf e.name && e.isDir) = [] := by
    rw [List.filter_eq_nil_iff]
    intro e he
    rcases hothers e he with h | h
    · simp [h]
    · have : cfgPrefix.isPrefixOf e.name = false := by
        cases hp : cfgPrefix.isPrefixOf e.name with
        | false => rfl
        | true => exact absurd (List.isPrefixOf_iff_prefix.1 hp) h
      simp [this]
  rw [h1, List.map_nil, List.append_nil, List.filter_map, List.map_map]
  have h2 : ids.filter ((fun e : Entry => cfgPrefix.isPrefixOf e.name && e.isDir) ∘
      (fun id => (⟨dirName id, true⟩ : Entry))) = ids := by
    rw [List.filter_eq_self]
    intro id _
    simp only [Function.comp, Bool.and_true]
    exact List.isPrefixOf_iff_prefix.2 (List.prefix_append _ _)
  rw [h2]
  have h3 : ids.map ((fun e : Entry => removeAll cfgPrefix 0 e.name) ∘
      (fun id => (⟨dirName id, true⟩ : Entry))) = ids := by
    conv_rhs => rw [← List.map_id ids]
    apply List.map_congr_left
    intro id hid
    exact (C18_id_survives_iff id).2 (hids id hid)
  rw [h3]

/-- Every id the bundled optimizers create (decimal numbers, possibly `n_r`) qualifies: it has no
letter at all. -/
theorem C18_generated_ids (id : List Char) (h : ∀ c ∈ id, c.isDigit = true ∨ c = '_') :
    removeAll cfgPrefix 0 (dirName id) = id := by
  rw [C18_id_survives_iff]
  intro hi
  have : 'c' ∈ id := hi.subset (by decide)
  rcases h 'c' this with h | h <;> exact absurd h (by decide)

/-- **C18 fails** for ids that contain `config_`: the trial stored under the id `my_config_1` is
listed as `my_1`, whose directory does not exist. -/
theorem C18_infix_fails :
    allTrialIds [⟨dirName "my_config_1".toList, true⟩] = ["my_1".toList] ∧
    dirName "my_1".toList ≠ dirName "my_config_1".toList := by decide

example : (allTrialIds [⟨dirName "3_1".toList, true⟩, ⟨".lock".toList, false⟩,
    ⟨dirName "10".toList, true⟩, ⟨"config_x".toList, false⟩]).Perm
    ["10".toList, "3_1".toList] := by decide

/-! ### C50: the error log file -/

theorem fileLines_acc (acc l rest : List Char) (hl : '\n' ∉ l) :
    fileLines acc (l ++ '\n' :: rest) = (acc.reverse ++ l ++ ['\n']) :: fileLines [] rest := by
  induction l generalizing acc with
  | nil => simp [fileLines]
  | cons c l ih =>
    have hc : c ≠ '\n' := by rintro rfl; simp at hl
    have hl' : '\n' ∉ l := fun h => hl (by simp [h])
    simp [fileLines, hc, ih (c :: acc) hl']

theorem fileLines_last (acc l : List Char) (hl : '\n' ∉ l) :
    fileLines acc l = if acc.reverse ++ l = [] then [] else [acc.reverse ++ l] := by
  induction l generalizing acc with
  | nil => simp [fileLines]
  | cons c l ih =>
    have hc : c ≠ '\n' := by rintro rfl; simp at hl
    have hl' : '\n' ∉ l := fun h => hl (by simp [h])
    simp [fileLines, hc, ih (c :: acc) hl']

/-- **C50.** Let `enc` be any line encoding of errors that never contains a newline and is never
empty, and `dec` any decoder that recovers the error from its line with or without a trailing
newline (as `json.dumps`/`json.loads` do). Then for every list of errors, of any length, reading
the file that was written returns exactly that list. -/
theorem C50_error_log_roundtrip {E : Type} (enc : E → List Char) (dec : List Char → Option E)
    (hnl : ∀ e, '\n' ∉ enc e) (hne : ∀ e, enc e ≠ [])
    (hdec : ∀ e, dec (enc e) = some e) (hdecn : ∀ e, dec (enc e ++ ['\n']) = some e)
    (es : List E) : readErrs dec (writeErrs enc es) = some es := by
  unfold readErrs writeErrs
  induction es with
  | nil => rfl
  | cons e es ih =>
    cases es with
    | nil =>
      simp only [List.map_cons, List.map_nil, joinLines]
      rw [fileLines_last [] _ (hnl e)]
      simp [hne e, hdec e]
    | cons e' es =>
      simp only [List.map_cons, joinLines] at ih ⊢
      rw [fileLines_acc [] _ _ (hnl e)]
      simp only [List.reverse_nil, List.nil_append, List.mapM_cons, hdecn e]
      rw [ih]
      rfl

/-- An encoder meeting the hypotheses: errors as strings of `a`s and `b`s in quotes. -/
example : ∃ (enc : List Bool → List Char) (dec : List Char → Option (List Bool)),
    (∀ e, '\n' ∉ enc e) ∧ (∀ e, enc e ≠ []) ∧ (∀ e, dec (enc e) = some e) ∧
    (∀ e, dec (enc e ++ ['\n']) = some e) := by
  refine ⟨fun e => '"' :: e.map (fun b => if b then 'a' else 'b'),
    fun l => some ((l.filter (fun c => c == 'a' || c == 'b')).map (fun c => c == 'a')),
    ?_, ?_, ?_, ?_⟩
  · intro e h
    simp only [List.mem_cons, List.mem_map] at h
    rcases h with h | ⟨b, -, h⟩
    · exact absurd h (by decide)
    · cases b <;> simp at h
  · simp
  · intro e
    induction e with
    | nil => rfl
    | cons b e ih => cases b <;> simp_all
  · intro e
    induction e with
    | nil => rfl
    | cons b e ih => cases b <;> simp_all

/-! ### C51: a kill while a trial is written -/

/-- **C51 fails.** If a worker is killed between the third and the last file operation of storing a
finished trial, the directory reads back as a trial in state `SUCCESS` without a report. -/
theorem C51_torn_write_fails :
    let r : Report := { exampleReport with err := none, reportedAs := .success, loss := some 0 }
    let t : Trial := { exampleTrial with state := .success, report := some r }
    let before := (writeTrial exampleTrial {}).1
    ∃ u, readTrial (writeTrialKilled 3 t before) = some u ∧
      u.state = .success ∧ u.report = none := by
  refine ⟨{ exampleTrial with state := .success }, ?_, ?_, ?_⟩ <;> decide

/-- **C51, partial.** Whatever the crash point, if the directory held a complete older version `t₀`
of the same trial (same configuration), then it still reads back as a trial, with the same
configuration, and each of metadata, state and report is the old or the new one; moreover the
new report is there only together with the new state. Missing: that state and report always
belong together (false, `C51_torn_write_fails`). -/
theorem C51_torn_write_partial (t₀ t : Trial) (k : Nat) (h₀ : t₀.Storable) (h : t.Storable)
    (hc : t.config = t₀.config) (hr : t₀.report.isSome → t.report.isSome) :
    ∃ u, readTrial (writeTrialKilled k t (writeTrial t₀ {}).1) = some u ∧
      u.config = t₀.config ∧
      (u.metadata = t₀.metadata ∨ u.metadata = t.metadata) ∧
      (u.state = t₀.state ∨ u.state = t.state) ∧
      (u.report = t₀.recovered.report ∨ (u.report = t.recovered.report ∧ u.state = t.state)) := by
  obtain ⟨hd₀, hrep₀⟩ := h₀
  obtain ⟨hd, hrep⟩ := h
  obtain ⟨cfg₀, md₀, st₀, rep₀⟩ := t₀
  obtain ⟨cfg, md, st, rep⟩ := t
  simp only at hc
  subst hc
  have f₀ : ∀ r, rep₀ = some r → ∃ f, r.toFile? = some f ∧
      f.toReport = { r with err := r.err.map (fun e => { cls := "Exception", msg := e.msg }) } :=
    fun r h => toFile?_toReport r (hrep₀ r h).2
  have f₁ : ∀ r, rep = some r → ∃ f, r.toFile? = some f ∧
      f.toReport = { r with err := r.err.map (fun e => { cls := "Exception", msg := e.msg }) } :=
    fun r h => toFile?_toReport r (hrep r h).2
  have x₀ : ∀ r, rep₀ = some r → dumpableDict r.extra = true := fun r h => (hrep₀ r h).1
  have x₁ : ∀ r, rep = some r → dumpableDict r.extra = true := fun r h => (hrep r h).1
  simp only at hd hd₀
  rcases rep₀ with _ | r₀ <;> rcases rep with _ | r
  · rcases hp₀ : md₀.previousTrialId with _ | p₀ <;> rcases hp : md.previousTrialId with _ | p <;>
      rcases k with _ | _ | _ | _ | k <;>
      simp [writeTrialKilled, writeTrial, writeOps, runOps, opConfig, opMetadata, opState, opPrev,
        readTrial, Trial.recovered, hp₀, hp, hd]
  · obtain ⟨f, hf, hfr⟩ := f₁ r rfl
    have hx := x₁ r rfl
    rcases hp₀ : md₀.previousTrialId with _ | p₀ <;> rcases hp : md.previousTrialId with _ | p <;>
      rcases k with _ | _ | _ | _ | _ | k <;>
      simp [writeTrialKilled, writeTrial, writeOps, runOps, opConfig, opMetadata, opState, opPrev,
        opReport, readTrial, Trial.recovered, hp₀, hp, hd, hf, hfr, hx]
  · simp at hr
  · obtain ⟨f, hf, hfr⟩ := f₁ r rfl
    have hx := x₁ r rfl
    obtain ⟨f', hf', hfr'⟩ := f₀ r₀ rfl
    have hx' := x₀ r₀ rfl
    rcases hp₀ : md₀.previousTrialId with _ | p₀ <;> rcases hp : md.previousTrialId with _ | p <;>
      rcases k with _ | _ | _ | _ | _ | k <;>
      simp [writeTrialKilled, writeTrial, writeOps, runOps, opConfig, opMetadata, opState, opPrev,
        opReport, readTrial, Trial.recovered, hp₀, hp, hd, hf, hfr, hx, hf', hfr', hx']

/-! ### C52: values that cannot be stored -/

/-- **C52 fails, unrepresentable values.** If the result of the objective contains a value that YAML
cannot represent, storing the report raises `TypeError`, and from then on the trial directory
cannot be read at all: the report file has been truncated. -/
theorem C52_unstorable_result_fails (t : Trial) (r : Report) (d : TrialDir)
    (hc : dumpableDict t.config = true) (hr : t.report = some r)
    (he : ∀ e, r.err = some e → e.copyable = true) (hx : dumpableDict r.extra = false) :
    (writeTrial t d).2 = some .typeError ∧ readTrial (writeTrial t d).1 = none := by
  obtain ⟨cfg, md, st, rep⟩ := t
  simp only at hr
  subst hr
  obtain ⟨f, hf, -⟩ := toFile?_toReport r he
  cases hp : md.previousTrialId <;>
    simp_all [writeTrial, writeOps, runOps, opConfig, opMetadata, opState, opPrev, opReport,
      readTrial]

/-- **C52 fails, exceptions that cannot be copied.** If the objective raises such an exception,
storing the report raises `TypeError`, and the directory then reads back as a trial in its final
state but without a report. -/
theorem C52_uncopyable_exception_fails (t : Trial) (r : Report) (d : TrialDir) (e : Exc)
    (hc : dumpableDict t.config = true) (hr : t.report = some r)
    (he : r.err = some e) (hn : e.copyable = false) (hd : d.report = none) :
    (writeTrial t d).2 = some .typeError ∧
    readTrial (writeTrial t d).1 = some { t with report := none } := by
  obtain ⟨cfg, md, st, rep⟩ := t
  simp only at hr
  subst hr
  have hf : r.toFile? = none := by simp [Report.toFile?, he, hn]
  cases hp : md.previousTrialId <;>
    simp_all [writeTrial, writeOps, runOps, opConfig, opMetadata, opState, opPrev, opReport,
      readTrial]

/-- An objective that returns a NumPy generator object next to its loss ends up in the first case. -/
example : ∃ t' r, evalTrial (fun _ => none) exampleTrial {}
    (.returned (.dict [("loss", .int 1), ("rng", .obj 0)])) 0 0 = .ok (t', r) ∧
    dumpableDict r.extra = false ∧ dumpableDict t'.config = true ∧ r.err = none :=
  ⟨_, _, rfl, by decide, by decide, rfl⟩

/-- And the partial theorem C51 has instances where the report is new. -/
example : ∃ t₀ t : Trial, t₀.Storable ∧ t.Storable ∧ t.config = t₀.config ∧
    (t₀.report.isSome → t.report.isSome) ∧ t.state ≠ t₀.state ∧ t.report.isSome := by
  refine ⟨exampleTrial, { exampleTrial with state := .crashed, report := some exampleReport },
    ⟨by decide, by simp [exampleTrial, Trial.new, Trial.setEvaluating]⟩, ⟨by decide, ?_⟩, rfl,
    by simp, by decide, rfl⟩
  rintro r hr
  simp only [Option.some.injEq] at hr
  subst hr
  exact ⟨by decide, by simp [exampleReport]⟩

end Neps
