import Verif.Status.Spec
import Verif.Run.Coherence
import Mathlib.Data.List.Induction

/-!
# Lemmas about the summary
-/

namespace Neps.Status

theorem set_fresh {V : Type} {d : List (String × V)} {k : String} (h : k ∉ d.map Prod.fst) (v : V) :
    Dict.set d k v = d ++ [(k, v)] := by
  induction d with
  | nil => rfl
  | cons p d ih =>
    obtain ⟨a, b⟩ := p
    simp only [List.map_cons, List.mem_cons, not_or] at h
    simp [Dict.set, Ne.symm h.1, ih h.2]

theorem get_update_of_not_mem (d e : List (String × PyVal)) (k : String)
    (h : Dict.get e k = none) : Dict.get (update d e) k = Dict.get d k := by
  induction e generalizing d with
  | nil => rfl
  | cons p e ih =>
    obtain ⟨a, b⟩ := p
    simp only [Dict.get] at h
    split at h
    · simp at h
    · next hne =>
      simp only [update, List.foldl_cons]
      have := ih (Dict.set d a b) h
      simp only [update] at this
      rw [this, Dict.get_set]
      simp [Ne.symm hne]

theorem get_update_cases (d e : List (String × PyVal)) (k : String) (v : PyVal)
    (h : Dict.get (update d e) k = some v) : Dict.get d k = some v ∨ (k, v) ∈ e := by
  induction e generalizing d with
  | nil => exact Or.inl h
  | cons p e ih =>
    obtain ⟨a, b⟩ := p
    simp only [update, List.foldl_cons] at h
    rcases ih (Dict.set d a b) h with h' | h'
    · rw [Dict.get_set] at h'
      split at h'
      · next hk => simp only [Option.some.injEq] at h'; subst hk h'; exact Or.inr (by simp)
      · exact Or.inl h'
    · exact Or.inr (by simp [h'])

/-! ## The result mapping -/

/-- A trial and the entry made for it. -/
def Rel (p : String × Trial) (q : String × Stat) : Prop :=
  ∃ r res, p.2.report = some r ∧ resultDict r = .ok res ∧
    q = (p.1, ⟨p.1, p.2.config, res, p.2.metadata⟩)

theorem resultDict_failed {r : Report} (h : r.reportedAs ≠ .success) : resultDict r = .ok none := by
  unfold resultDict
  split
  · contradiction
  · rfl

theorem resultDict_success {r : Report} {res} (h : r.reportedAs = .success)
    (he : resultDict r = .ok res) (hx : Dict.get r.extra "loss" = none) :
    ∃ d, res = some d ∧ Dict.get d "loss" = some (optFloatVal r.loss) := by
  have h0 : Dict.get (update [("loss", optFloatVal r.loss), ("cost", optFloatVal r.cost)] r.extra)
      "loss" = some (optFloatVal r.loss) := by
    rw [get_update_of_not_mem _ _ _ hx]; simp [Dict.get]
  have hne : ¬ ("loss" = "info_dict") := by decide
  unfold resultDict at he
  rw [h] at he
  simp only at he
  split at he
  · simp only [Except.ok.injEq] at he
    exact ⟨_, he.symm, by rw [Dict.get_set, if_neg hne, h0]⟩
  · split at he
    · simp at he
    · simp only [Except.ok.injEq] at he
      exact ⟨_, he.symm, h0⟩
    · split at he
      · simp only [Except.ok.injEq] at he
        exact ⟨_, he.symm, by rw [Dict.get_set, if_neg hne, h0]⟩
      · simp at he

theorem resultDict_isOk {r : Report}
    (hi : r.reportedAs = .success → ∀ v, ("info_dict", v) ∈ r.extra → ∃ i, v = .dict i) :
    ∃ res, resultDict r = .ok res := by
  by_cases h : r.reportedAs = .success
  · unfold resultDict
    rw [h]
    simp only
    split
    · exact ⟨_, rfl⟩
    · next v hv =>
      rcases get_update_cases _ _ _ _ hv with hv | hv
      · simp [Dict.get] at hv
      · obtain ⟨i, rfl⟩ := hi h v hv
        simp only [contains]
        cases Dict.has i "learning_curve" <;> exact ⟨_, rfl⟩
  · exact ⟨none, resultDict_failed h⟩

theorem Rel.result_none {p q} (h : Rel p q) : (q.2.result = none) = (isFailed p.2 = true) := by
  obtain ⟨r, res, hr, he, rfl⟩ := h
  simp only [isFailed, hr, eq_iff_iff, bne_iff_ne]
  constructor
  · rintro rfl hs
    unfold resultDict at he
    rw [hs] at he
    simp only at he
    split at he
    · simp at he
    · split at he
      · simp at he
      · simp at he
      · split at he <;> simp at he
  · intro hs
    rw [resultDict_failed hs] at he
    simpa using he.symm

theorem Rel.loss {p q} (fs : String → Option PyFloat) (h : Rel p q) (hl : HasLoss p.2) :
    q.2.loss fs = .ok (lossOf p.2) := by
  obtain ⟨r, res, hr, he, rfl⟩ := h
  simp only [Stat.loss, lossOf, hr]
  by_cases hs : r.reportedAs = .success
  · obtain ⟨hsome, hx⟩ := hl r hr hs
    obtain ⟨d, rfl, hd⟩ := resultDict_success hs he hx
    obtain ⟨x, hx⟩ := Option.isSome_iff_exists.mp hsome
    simp [hd, hx, hs, optFloatVal, PyVal.toFloat]
  · rw [resultDict_failed hs] at he
    simp only [Except.ok.injEq] at he
    subst he
    simp [hs]

/-! ## The collected evaluations -/

theorem collect_ok {ts acc ev} (h : collect ts acc = .ok ev) (hn : (ts.map Prod.fst).Nodup)
    (hid : ∀ p ∈ ts, p.2.id = p.1) (hd : ∀ p ∈ ts, p.1 ∉ acc.map Prod.fst) :
    ∃ l, ev = acc ++ l ∧ List.Forall₂ Rel (ts.filter (fun p => isEvaluated p.2)) l := by
  induction ts generalizing acc with
  | nil =>
    simp only [collect, Except.ok.injEq] at h
    exact ⟨[], by simp [h], by simp⟩
  | cons p ts ih =>
    obtain ⟨k, t⟩ := p
    simp only [List.map_cons, List.nodup_cons] at hn
    simp only [collect] at h
    split at h
    · next hr =>
      obtain ⟨l, h1, h2⟩ := ih h hn.2 (fun p hp => hid p (by simp [hp]))
        (fun p hp => hd p (by simp [hp]))
      exact ⟨l, h1, by simpa [List.filter_cons, isEvaluated, hr] using h2⟩
    · next r hr =>
      split at h
      · simp at h
      · next res he =>
        have hk : t.id = k := hid (k, t) (by simp)
        have hfresh : t.id ∉ acc.map Prod.fst := by rw [hk]; exact hd (k, t) (by simp)
        rw [set_fresh hfresh, hk] at h
        obtain ⟨l, h1, h2⟩ := ih h hn.2 (fun p hp => hid p (by simp [hp])) (by
          intro p hp
          simp only [List.map_append, List.map_cons, List.map_nil, List.mem_append,
            List.mem_singleton, not_or]
          refine ⟨hd p (by simp [hp]), ?_⟩
          rintro rfl
          exact hn.1 (List.mem_map.mpr ⟨p, hp, rfl⟩))
        refine ⟨(k, ⟨k, t.config, res, t.metadata⟩) :: l, by simp [h1], ?_⟩
        simp only [List.filter_cons, isEvaluated, hr, Option.isSome_some, if_true]
        exact List.Forall₂.cons ⟨r, res, hr, he, rfl⟩ h2

theorem collect_isOk {ts acc} (h : ∀ p ∈ ts, ∀ r, p.2.report = some r → ∃ res, resultDict r = .ok res) :
    ∃ ev, collect ts acc = .ok ev := by
  induction ts generalizing acc with
  | nil => exact ⟨acc, rfl⟩
  | cons p ts ih =>
    obtain ⟨k, t⟩ := p
    simp only [collect]
    split
    · exact ih (fun p hp => h p (by simp [hp]))
    · next r hr =>
      obtain ⟨res, he⟩ := h (k, t) (by simp) r hr
      rw [he]
      exact ih (fun p hp => h p (by simp [hp]))

theorem collect_error {ts acc k t r e} (hm : (k, t) ∈ ts) (hr : t.report = some r)
    (he : resultDict r = .error e) : ∃ e', collect ts acc = .error e' := by
  induction ts generalizing acc with
  | nil => simp at hm
  | cons p ts ih =>
    obtain ⟨k', t'⟩ := p
    simp only [collect]
    rcases List.mem_cons.mp hm with hm | hm
    · simp only [Prod.mk.injEq] at hm
      obtain ⟨rfl, rfl⟩ := hm
      simp [hr, he]
    · split
      · exact ih hm
      · split
        · exact ⟨_, rfl⟩
        · exact ih hm

/-! ## The loop -/

/-- What the loop does for one trial. -/
def stepT (b : Best) (p : String × Trial) : Best :=
  let b := if isFailed p.2 then { b with errors := b.errors + 1 } else b
  match lossOf p.2 with
  | none => b
  | some x =>
    if PyFloat.lt x b.loss then
      { b with loss := x, config := some p.2.config, id := some p.1, metadata := some p.2.metadata }
    else b

theorem stepT_not_evaluated {b : Best} {p} (h : isEvaluated p.2 = false) : stepT b p = b := by
  have : p.2.report = none := by simpa [isEvaluated] using h
  simp [stepT, isFailed, lossOf, this]

theorem Best.step_eq {fs} {b : Best} {p q} (h : Rel p q) (hl : HasLoss p.2) :
    b.step fs q.2 = .ok (stepT b p) := by
  unfold Best.step
  rw [h.loss fs hl]
  simp only [h.result_none, stepT]
  obtain ⟨r, res, hr, he, rfl⟩ := h
  cases hlo : lossOf p.2 with
  | none => simp
  | some x =>
    simp only
    generalize (if isFailed p.2 = true then { b with errors := b.errors + 1 } else b) = c
    split <;> simp_all

theorem loop_eq {fs} {ts : List (String × Trial)} {l} (b : Best)
    (h : List.Forall₂ Rel (ts.filter (fun p => isEvaluated p.2)) l)
    (hl : ∀ p ∈ ts, HasLoss p.2) : Best.loop fs l b = .ok (ts.foldl stepT b) := by
  induction ts generalizing l b with
  | nil => cases h; rfl
  | cons p ts ih =>
    by_cases hp : isEvaluated p.2 = true
    · simp only [List.filter_cons, hp, if_true] at h
      cases h with
      | cons h1 h2 =>
        next q l =>
        obtain ⟨k, s⟩ := q
        simp only [Best.loop]
        rw [show b.step fs s = _ from Best.step_eq h1 (hl p (by simp))]
        exact ih _ h2 (fun p hp => hl p (by simp [hp]))
    · simp only [Bool.not_eq_true] at hp
      simp only [List.filter_cons, hp, Bool.false_eq_true, if_false] at h
      rw [List.foldl_cons, stepT_not_evaluated hp]
      exact ih _ h (fun p hp => hl p (by simp [hp]))

theorem stepT_errors (b : Best) (p) :
    (stepT b p).errors = b.errors + (if isFailed p.2 then 1 else 0) := by
  unfold stepT
  by_cases h : isFailed p.2 = true <;> cases lossOf p.2 <;> simp [h] <;> split <;> simp

theorem foldl_errors (ts : List (String × Trial)) (b : Best) :
    (ts.foldl stepT b).errors = b.errors + ts.countP (fun p => isFailed p.2) := by
  induction ts generalizing b with
  | nil => rfl
  | cons p ts ih => rw [List.foldl_cons, ih, stepT_errors, List.countP_cons]; omega

theorem lt_of_lt_of_lt {a b c : PyFloat} (h : PyFloat.lt a b = true) (h' : PyFloat.lt b c = true) :
    PyFloat.lt a c = true := by
  cases a <;> cases b <;> cases c <;> simp_all [PyFloat.lt]
  linarith

theorem lt_of_lt_of_le {a b c : PyFloat} (h : PyFloat.lt a b = true) (h' : PyFloat.le b c = true) :
    PyFloat.lt a c = true := by
  cases a <;> cases b <;> cases c <;> simp_all [PyFloat.lt, PyFloat.le]
  linarith

theorem le_of_not_lt {a b : PyFloat} (ha : a ≠ .nan) (h : PyFloat.lt a b = false) (hb : b ≠ .nan) :
    PyFloat.le b a = true := by
  cases a <;> cases b <;> simp_all [PyFloat.lt, PyFloat.le]

/-- `BestIsRight` for the state of the loop. -/
def Right (ts : List (String × Trial)) (b : Best) : Prop :=
  (b.id = none ∧ b.config = none ∧ b.metadata = none ∧ b.loss = .pinf ∧
    ∀ p ∈ ts, ∀ x, lossOf p.2 = some x → x = .pinf ∨ x = .nan) ∨
  ∃ before k t after, ts = before ++ (k, t) :: after ∧
    b.id = some k ∧ b.config = some t.config ∧ b.metadata = some t.metadata ∧
    lossOf t = some b.loss ∧ b.loss ≠ .pinf ∧ b.loss ≠ .nan ∧
    (∀ p ∈ before, ∀ x, lossOf p.2 = some x → x = .nan ∨ PyFloat.lt b.loss x = true) ∧
    (∀ p ∈ after, ∀ x, lossOf p.2 = some x → x = .nan ∨ PyFloat.le b.loss x = true)

theorem Right.congr {ts} {b b' : Best} (h : Right ts b) (h1 : b'.id = b.id)
    (h2 : b'.config = b.config) (h3 : b'.metadata = b.metadata) (h4 : b'.loss = b.loss) :
    Right ts b' := by
  unfold Right at *
  rw [h1, h2, h3, h4]; exact h

theorem Right.keep {ts} {b : Best} (p) (h : Right ts b)
    (hp : ∀ x, lossOf p.2 = some x → PyFloat.lt x b.loss = false) : Right (ts ++ [p]) b := by
  rcases h with ⟨h1, h2, h3, h4, h5⟩ | ⟨before, k, t, after, e, h1, h2, h3, h4, h5, h6, h7, h8⟩
  · refine Or.inl ⟨h1, h2, h3, h4, ?_⟩
    intro q hq x hx
    rcases List.mem_append.mp hq with hq | hq
    · exact h5 q hq x hx
    · simp only [List.mem_singleton] at hq
      subst hq
      have := hp x hx
      rw [h4] at this
      cases x <;> simp_all [PyFloat.lt]
  · refine Or.inr ⟨before, k, t, after ++ [p], by simp [e], h1, h2, h3, h4, h5, h6, h7, ?_⟩
    intro q hq x hx
    rcases List.mem_append.mp hq with hq | hq
    · exact h8 q hq x hx
    · simp only [List.mem_singleton] at hq
      subst hq
      by_cases hn : x = .nan
      · exact Or.inl hn
      · exact Or.inr (le_of_not_lt hn (hp x hx) h6)

theorem Right.take {ts} {b : Best} (k : String) (t : Trial) (h : Right ts b) (x : PyFloat)
    (hx : lossOf t = some x) (hlt : PyFloat.lt x b.loss = true) (n : Nat) :
    Right (ts ++ [(k, t)]) { loss := x, config := some t.config, id := some k,
                             metadata := some t.metadata, errors := n } := by
  refine Or.inr ⟨ts, k, t, [], rfl, rfl, rfl, rfl, hx, ?_, ?_, ?_, by simp⟩
  · rintro rfl; cases hb : b.loss <;> simp [hb, PyFloat.lt] at hlt
  · rintro rfl; simp [PyFloat.lt] at hlt
  · intro q hq y hy
    rcases h with ⟨h1, h2, h3, h4, h5⟩ | ⟨before, k', t', after, e, h1, h2, h3, h4, h5, h6, h7, h8⟩
    · rcases h5 q hq y hy with rfl | rfl
      · exact Or.inr (h4 ▸ hlt)
      · exact Or.inl rfl
    · subst e
      rcases List.mem_append.mp hq with hq | hq
      · exact (h7 q hq y hy).imp_right (lt_of_lt_of_lt hlt)
      · rcases List.mem_cons.mp hq with rfl | hq
        · simp only at hy
          rw [h4] at hy
          cases hy
          exact Or.inr hlt
        · exact (h8 q hq y hy).imp_right (lt_of_lt_of_le hlt)

theorem Right.step {ts} {b : Best} (p) (h : Right ts b) : Right (ts ++ [p]) (stepT b p) := by
  obtain ⟨k, t⟩ := p
  have h' : Right ts (if isFailed t then { b with errors := b.errors + 1 } else b) := by
    refine h.congr ?_ ?_ ?_ ?_ <;> split <;> rfl
  unfold stepT
  simp only
  generalize (if isFailed t then { b with errors := b.errors + 1 } else b) = c at h'
  split
  · next hn => exact h'.keep _ (by simp [hn])
  · next x hx =>
    split
    · next hlt => exact h'.take k t x hx hlt _
    · next hlt => exact h'.keep _ (by simp [hx, Bool.not_eq_true] at hlt ⊢; exact hlt)

theorem right_foldl (ts : List (String × Trial)) : Right ts (ts.foldl stepT {}) := by
  induction ts using List.reverseRecOn with
  | nil => exact Or.inl ⟨rfl, rfl, rfl, rfl, by simp⟩
  | append_singleton ts p ih =>
    rw [List.foldl_append]
    exact ih.step p

theorem inState_nil (s : TState) (ts : List (String × Trial)) : inState s ts = [] := by
  unfold inState
  induction ts with
  | nil => rfl
  | cons p ts ih => simp [classEquals]

theorem summarize_ok {fs ts s} (h : summarize fs ts = .ok s) (hk : ById ts)
    (hl : ∀ p ∈ ts, HasLoss p.2) :
    ∃ l, List.Forall₂ Rel (ts.filter (fun p => isEvaluated p.2)) l ∧
      s = { previousResults := l, pendingConfigs := [], pendingConfigsFree := [],
            numEvaluated := l.length, numPending := 0, numPendingWithWorker := 0,
            bestLoss := (ts.foldl stepT {}).loss, bestId := (ts.foldl stepT {}).id,
            bestMetadata := (ts.foldl stepT {}).metadata,
            bestConfig := (ts.foldl stepT {}).config,
            numError := (ts.foldl stepT {}).errors } := by
  unfold summarize at h
  split at h
  · simp at h
  · next ev hev =>
    obtain ⟨l, hl', hf⟩ := collect_ok hev hk.1 hk.2 (by simp)
    simp only [List.nil_append] at hl'
    subst hl'
    simp only [loop_eq {} hf hl, inState_nil, Except.ok.injEq] at h
    exact ⟨ev, hf, h.symm⟩

theorem summarize_isOk {fs ts} (hk : ById ts) (hl : ∀ p ∈ ts, HasLoss p.2)
    (hi : ∀ p ∈ ts, ∀ r, p.2.report = some r → r.reportedAs = .success →
      ∀ v, ("info_dict", v) ∈ r.extra → ∃ i, v = .dict i) :
    ∃ s, summarize fs ts = .ok s := by
  obtain ⟨ev, hev⟩ := collect_isOk (acc := [])
    (fun p hp r hr => resultDict_isOk (hi p hp r hr))
  obtain ⟨l, hl', hf⟩ := collect_ok hev hk.1 hk.2 (by simp)
  simp only [List.nil_append] at hl'
  subst hl'
  unfold summarize
  rw [hev]
  simp only [loop_eq {} hf hl]
  exact ⟨_, rfl⟩

end Neps.Status
