import Verif.MF.Best
import Verif.MF.Live
import Verif.MF.Brackets
import Verif.MF.Witness
import Verif.Opt.Ids

/-!
# Properties of successive halving, ASHA, hyperband and asynchronous hyperband

The optimizers are those of `IsMF`; histories are `Reach` (`MF/Spec.lean`).
-/

namespace Neps.MF

variable {P F : Type}

/-! ## The histories used in the examples -/

/-- The brackets of the examples agree on the budgets. -/
theorem twoRungs_agree : ∀ i, i < 2 → Agrees (twoRungs i) (fun r => r + 1) := by
  intro i _
  cases i with
  | zero => exact ⟨by decide, fun r _ _ => rfl⟩
  | succ i => exact ⟨Nat.le_refl _, fun r _ _ => rfl⟩

set_option maxRecDepth 8000 in
theorem demo_once : ReachOnce (IsHB {} twoRungs 2) demo := by
  have hf : IsHB (P := Nat) {} twoRungs 2 (hbAsk {} twoRungs 2 argsort) := ⟨_, argsort_sorts, rfl⟩
  have h1 : ReachOnce (IsHB (P := Nat) {} twoRungs 2) [⟨⟨0, 0⟩, 10, 1, .pending⟩] :=
    .ask (p := ⟨⟨0, 0⟩, 10, 1, none⟩) (new := 10) .start hf (.refl _) (by decide +kernel)
  have h2 : ReachOnce (IsHB (P := Nat) {} twoRungs 2)
      [⟨⟨0, 0⟩, 10, 1, .pending⟩, ⟨⟨1, 0⟩, 11, 1, .pending⟩] :=
    .ask (p := ⟨⟨1, 0⟩, 11, 1, none⟩) (new := 11) h1 hf (.refl _) (by decide +kernel)
  have h3 := ReachOnce.report ⟨0, 0⟩ (.loss (.num 5)) h2 (by simp) (by decide)
  exact ReachOnce.report ⟨1, 0⟩ (.loss (.num 3)) h3 (by simp) (by decide)

/-- One bracket, for successive halving and ASHA. -/
abbrev oneBracket : Bracket Nat := twoRungs 0

theorem oneBracket_agrees : Agrees oneBracket (fun r => r + 1) := twoRungs_agree 0 (by omega)

set_option maxRecDepth 8000 in
theorem demo_asha : Reach (IsASHA {} oneBracket) demo := by
  have hf : IsASHA (P := Nat) {} oneBracket (ashaAsk {} oneBracket argsort) := ⟨_, argsort_sorts, rfl⟩
  have h1 : Reach (IsASHA (P := Nat) {} oneBracket) [⟨⟨0, 0⟩, 10, 1, .pending⟩] :=
    .ask (p := ⟨⟨0, 0⟩, 10, 1, none⟩) (new := 10) .start hf (.refl _) (by decide +kernel)
  have h2 : Reach (IsASHA (P := Nat) {} oneBracket)
      [⟨⟨0, 0⟩, 10, 1, .pending⟩, ⟨⟨1, 0⟩, 11, 1, .pending⟩] :=
    .ask (p := ⟨⟨1, 0⟩, 11, 1, none⟩) (new := 11) h1 hf (.refl _) (by decide +kernel)
  have h3 := Reach.report ⟨0, 0⟩ (.loss (.num 5)) h2 (by simp)
  exact Reach.report ⟨1, 0⟩ (.loss (.num 3)) h3 (by simp)

/-- Successive halving is hyperband with a single bracket. -/
theorem isSH_eq (st : Settings) (b : Bracket F) :
    (IsSH st b : AskFn P F → Prop) = IsHB st (fun _ => b) 1 := by
  funext f
  apply propext
  constructor
  · rintro ⟨sort, hs, rfl⟩
    exact ⟨sort, hs, funext fun ts => funext fun new => shAsk_eq st b sort ts new⟩
  · rintro ⟨sort, hs, rfl⟩
    exact ⟨sort, hs, funext fun ts => funext fun new => (shAsk_eq st b sort ts new).symm⟩

/-! ## C22: fresh ids -/

/-- C22: the proposed id, as a pair of numbers and as text, is not the id of a stored trial. -/
theorem C22_mf_id_fresh {budget : Nat → F} {A : AskFn P F → Prop} (hA : IsMF budget A)
    {H H' : List (Rec P F)} (h : Reach A H) (hp : H'.Perm H) {f : AskFn P F} (hf : A f) {new : P}
    {p : Proposal P F} (hask : f H' new = .ok p) :
    p.key ∉ H.map (·.key) ∧
      Ids.fmtId p.key.cfg p.key.rung ∉ H.map (fun t => Ids.fmtId t.key.cfg t.key.rung) := by
  have hI := h.inv hA
  obtain ⟨st, b, T, ps, ho, hps, hb, hget⟩ := ask_result hA hf hask
  have hc := proposal_cases hb hI hp ho hps hget
  have hnew := (hI.snoc (p := p) (by
    rcases hc with hc | ⟨h1, h2, h3, h4, _⟩
    · exact Or.inl hc
    · exact Or.inr ⟨h1, h2, h3, h4⟩)).1
  refine ⟨hnew, fun hm => hnew ?_⟩
  obtain ⟨t, ht, he⟩ := List.mem_map.1 hm
  obtain ⟨h1, h2⟩ := Ids.fmtId_injective he
  refine List.mem_map.2 ⟨t, ht, ?_⟩
  cases hk : t.key
  cases hk' : p.key
  simp_all

example : IsMF (P := Nat) (fun r => r + 1) (IsHB {} twoRungs 2) ∧
    Reach (IsHB {} twoRungs 2) demo := ⟨.hb _ _ _ twoRungs_agree (by omega), demo_once.reach⟩

/-- C22: the id written for configuration `c` at rung `r` is read back as these numbers. -/
theorem C22_id_text (c r : Nat) : Ids.parseId (Ids.fmtId c r) = some (c, r) := Ids.parseId_fmtId c r

example : Ids.parseId "12_3".toList = some (12, 3) ∧ Ids.fmtId 12 3 = "12_3".toList ∧
    Ids.parseId "12".toList = none := by decide +kernel

/-! ## C24: promotions -/

/-- C24: a proposal with a predecessor continues a stored, finished trial at the next rung: the id
names the same configuration, the hyperparameters are the same, the fidelity is the one of the next
rung; the configuration was not evaluated there before. -/
theorem C24_promotion_continues {budget : Nat → F} {A : AskFn P F → Prop} (hA : IsMF budget A)
    {H H' : List (Rec P F)} (h : Reach A H) (hp : H'.Perm H) {f : AskFn P F} (hf : A f) {new : P}
    {p : Proposal P F} (hask : f H' new = .ok p) {k : Key} (hprev : p.prev = some k) :
    ∃ t ∈ H, t.key = k ∧ t.res ≠ .pending ∧ p.params = t.params ∧
      p.key = ⟨k.cfg, k.rung + 1⟩ ∧ p.fid = budget (k.rung + 1) ∧ t.fid = budget k.rung ∧
      ∀ t' ∈ H, t'.key.cfg = k.cfg → t'.key.rung ≤ k.rung := by
  have hI := h.inv hA
  obtain ⟨st, b, T, ps, ho, hps, hb, hget⟩ := ask_result hA hf hask
  rcases proposal_cases hb hI hp ho hps hget with ⟨t, ht, h1, h2, h3, h4, h5, h6⟩ | ⟨h1, _⟩
  · rw [h1] at hprev
    cases hprev
    exact ⟨t, ht, rfl, h4, h3, h2, h5, hI.fid t ht, h6⟩
  · rw [h1] at hprev; cases hprev

set_option maxRecDepth 4000 in
example : hbAsk {} twoRungs 2 argsort demo 12 = .ok ⟨⟨1, 1⟩, 11, 2, some ⟨1, 0⟩⟩ := by decide +kernel

/-- C24, the other proposals: a fresh configuration has the next number and the sampled
hyperparameters, at the fidelity of its rung. -/
theorem C24_new_configuration {budget : Nat → F} {A : AskFn P F → Prop} (hA : IsMF budget A)
    {H H' : List (Rec P F)} (h : Reach A H) (hp : H'.Perm H) {f : AskFn P F} (hf : A f) {new : P}
    {p : Proposal P F} (hask : f H' new = .ok p) (hprev : p.prev = none) :
    (∀ c, (∃ t ∈ H, t.key.cfg = c) ↔ c < p.key.cfg) ∧ p.params = new ∧
      p.fid = budget p.key.rung := by
  have hI := h.inv hA
  obtain ⟨st, b, T, ps, ho, hps, hb, hget⟩ := ask_result hA hf hask
  rcases proposal_cases hb hI hp ho hps hget with ⟨t, ht, h1, _⟩ | ⟨_, h2, h3, h4, h5⟩
  · rw [h1] at hprev; cases hprev
  · refine ⟨fun c => ⟨?_, h3 c⟩, h5, h4⟩
    rintro ⟨t, ht, rfl⟩
    exact h2 t ht

set_option maxRecDepth 4000 in
example : hbAsk {} twoRungs 2 argsort (demo.take 1) 12 = .ok ⟨⟨1, 0⟩, 12, 1, none⟩ := by decide +kernel

/-! ## C28: the order of the trials does not matter -/

/-- C28: the table of observations depends on the set of trials only, provided ids are unique and
no configuration has two pending trials. -/
theorem C28_observe_order (st : Settings) {H H' : List (Rec P F)} (hp : H'.Perm H)
    (hnodup : (H.map (·.key)).Nodup)
    (hpend : ∀ t ∈ H, ∀ t' ∈ H, t.res = .pending → t'.res = .pending →
      t.key.cfg = t'.key.cfg → t = t') :
    observe st H' = observe st H := observe_perm st hp hnodup hpend

/-- C28: on every history the answer is the same for every order of the mapping. -/
theorem C28_ask_order {budget : Nat → F} {A : AskFn P F → Prop} (hA : IsMF budget A)
    {H H' : List (Rec P F)} (h : Reach A H) (hp : H'.Perm H) {f : AskFn P F} (hf : A f) (new : P) :
    f H' new = f H new := by
  have hI := h.inv hA
  exact ask_congr hA hf (fun st => observe_perm st hp hI.nodup hI.one_pending) new

example : demo.reverse.Perm demo ∧ demo.reverse ≠ demo := by
  exact ⟨List.reverse_perm _, by decide⟩

/-! ## C23: who is promoted -/

/-- C23, synchronous: hyperband promotes the configuration of a bracket only from a rung that got
its full quota, while the next rung has a free place, and all configurations of the bracket that
are still at that rung are finished and not better. -/
theorem C23_sync_promotion {st : Settings} {budget : Nat → F} {bs : Nat → Bracket F} {nb : Nat}
    (hbud : ∀ i, i < nb → Agrees (bs i) budget) (hg : ∀ i, i < nb → Good (bs i)) (hnb : 0 < nb)
    {H H' : List (Rec P F)} (h : Reach (IsHB st bs nb) H) (hp : H'.Perm H) {f : AskFn P F}
    (hf : IsHB st bs nb f) {new : P} {p : Proposal P F} (hask : f H' new = .ok p) {k0 : Key}
    (hprev : p.prev = some k0) :
    ∃ k, ∃ t0 ∈ H, t0.key = k0 ∧ Unpromoted H t0 ∧ p.key = ⟨k0.cfg, k0.rung + 1⟩ ∧
      InSlice (sliceStart bs nb st.offset k) (bs (k % nb)).size t0 ∧
      (bs (k % nb)).minR ≤ k0.rung ∧ k0.rung < (bs (k % nb)).maxR ∧
      evaluatedAt H (sliceStart bs nb st.offset k) (bs (k % nb)).size k0.rung
        = (bs (k % nb)).cap k0.rung ∧
      evaluatedAt H (sliceStart bs nb st.offset k) (bs (k % nb)).size (k0.rung + 1)
        < (bs (k % nb)).cap (k0.rung + 1) ∧
      ∃ x0, lossOf st t0 = some x0 ∧ ∀ t ∈ H, t.key.rung = k0.rung →
        InSlice (sliceStart bs nb st.offset k) (bs (k % nb)).size t → Unpromoted H t →
        ∃ x, lossOf st t = some x ∧ PyFloat.le x0 x = true := by
  obtain ⟨sort, hs, rfl⟩ := hf
  exact hb_promotion hg hnb hs (h.inv (.hb st bs nb hbud hnb)) (h.occ hbud hg hnb) hp hask hprev

/-- C23 for successive halving: its brackets are consecutive blocks of `b.size` configurations. -/
theorem C23_sh_promotion {st : Settings} {budget : Nat → F} {b : Bracket F} (hbud : Agrees b budget)
    (hg : Good b) {H H' : List (Rec P F)} (h : Reach (IsSH st b) H) (hp : H'.Perm H) {f : AskFn P F}
    (hf : IsSH st b f) {new : P} {p : Proposal P F} (hask : f H' new = .ok p) {k0 : Key}
    (hprev : p.prev = some k0) :
    ∃ k, ∃ t0 ∈ H, t0.key = k0 ∧ Unpromoted H t0 ∧ p.key = ⟨k0.cfg, k0.rung + 1⟩ ∧
      InSlice (st.offset + k * b.size) b.size t0 ∧ b.minR ≤ k0.rung ∧ k0.rung < b.maxR ∧
      evaluatedAt H (st.offset + k * b.size) b.size k0.rung = b.cap k0.rung ∧
      evaluatedAt H (st.offset + k * b.size) b.size (k0.rung + 1) < b.cap (k0.rung + 1) ∧
      ∃ x0, lossOf st t0 = some x0 ∧ ∀ t ∈ H, t.key.rung = k0.rung →
        InSlice (st.offset + k * b.size) b.size t → Unpromoted H t →
        ∃ x, lossOf st t = some x ∧ PyFloat.le x0 x = true := by
  rw [isSH_eq] at h hf
  have hstart : ∀ k, sliceStart (fun _ => b) 1 st.offset k = st.offset + k * b.size := by
    intro k
    induction k with
    | zero => simp [sliceStart]
    | succ k ih => simp only [sliceStart, ih, Nat.succ_mul]; omega
  obtain ⟨k, hk⟩ := C23_sync_promotion (budget := budget) (fun _ _ => hbud) (fun _ _ => hg) (by omega)
    h hp hf hask hprev
  rw [hstart] at hk
  exact ⟨k, hk⟩

/-- C23, over the whole run: in a history of hyperband where every trial is reported at most once,
the configurations of a bracket that were promoted from a rung all have a loss at most that of each
configuration that was not; and the rung had its full quota. -/
theorem C23_sync_best {st : Settings} {budget : Nat → F} {bs : Nat → Bracket F} {nb : Nat}
    (hbud : ∀ i, i < nb → Agrees (bs i) budget) (hg : ∀ i, i < nb → Good (bs i)) (hnb : 0 < nb)
    {H : List (Rec P F)} (h : ReachOnce (IsHB st bs nb) H) {k : Nat} {t t' : Rec P F} (ht : t ∈ H)
    (ht' : t' ∈ H) (hr : t.key.rung = t'.key.rung)
    (hin : InSlice (sliceStart bs nb st.offset k) (bs (k % nb)).size t)
    (hin' : InSlice (sliceStart bs nb st.offset k) (bs (k % nb)).size t')
    (hprom : ¬ Unpromoted H t) (hnot : Unpromoted H t') :
    evaluatedAt H (sliceStart bs nb st.offset k) (bs (k % nb)).size t.key.rung
      = (bs (k % nb)).cap t.key.rung ∧
    ∃ x x', lossOf st t = some x ∧ lossOf st t' = some x' ∧ PyFloat.le x x' = true := by
  have hB := h.best hbud hg hnb
  have hO := h.reach.occ hbud hg hnb
  exact ⟨hB.full k t ht hin (hO.range k t ht hin.1 hin.2).1 hprom,
    hB.best k t ht t' ht' hr hin hin' hprom hnot⟩

set_option maxRecDepth 8000 in
example : ∃ H : List (Rec Nat Nat), ReachOnce (IsHB {} twoRungs 2) H ∧ ∃ t ∈ H, ∃ t' ∈ H, t.key.rung = t'.key.rung ∧
    InSlice (sliceStart twoRungs 2 0 0) (twoRungs 0).size t ∧
    InSlice (sliceStart twoRungs 2 0 0) (twoRungs 0).size t' ∧ ¬ Unpromoted H t ∧ Unpromoted H t' := by
  refine ⟨demo ++ [(⟨⟨1, 1⟩, 11, 2, some ⟨1, 0⟩⟩ : Proposal Nat Nat).toRec],
    .ask demo_once ⟨argsort, argsort_sorts, rfl⟩ (.refl _) (new := 12) (by decide +kernel),
    ⟨⟨1, 0⟩, 11, 1, .loss (.num 3)⟩, by decide, ⟨⟨0, 0⟩, 10, 1, .loss (.num 5)⟩, by decide, rfl, ?_, ?_, ?_, ?_⟩ <;>
    simp only [InSlice, Unpromoted] <;> decide

/-- C23, no more than the quota: in every history of hyperband, a bracket evaluates at most as many
configurations at a rung as the capacity of the rung. -/
theorem C23_sync_quota {st : Settings} {budget : Nat → F} {bs : Nat → Bracket F} {nb : Nat}
    (hbud : ∀ i, i < nb → Agrees (bs i) budget) (hg : ∀ i, i < nb → Good (bs i)) (hnb : 0 < nb)
    {H : List (Rec P F)} (h : Reach (IsHB st bs nb) H) (k r : Nat) (h1 : (bs (k % nb)).minR ≤ r)
    (h2 : r ≤ (bs (k % nb)).maxR) :
    evaluatedAt H (sliceStart bs nb st.offset k) (bs (k % nb)).size r ≤ (bs (k % nb)).cap r ∧
    ∀ t ∈ H, InSlice (sliceStart bs nb st.offset k) (bs (k % nb)).size t →
      (bs (k % nb)).minR ≤ t.key.rung ∧ t.key.rung ≤ (bs (k % nb)).maxR :=
  have hO := h.occ hbud hg hnb
  ⟨hO.quota k r h1 h2, fun t ht hin => hO.range k t ht hin.1 hin.2⟩

example : evaluatedAt demo 0 2 0 = 2 ∧ (twoRungs 0).cap 0 = 2 := by decide

/-- C23, asynchronous successive halving: a configuration is promoted only below the highest rung,
when at least `eta` configurations compete, and none of them is better. Unless all competing
evaluations failed and failures are ignored. -/
theorem C23_asha_promotion_partial {st : Settings} {budget : Nat → F} {b : Bracket F}
    (hbud : Agrees b budget) {H H' : List (Rec P F)} (h : Reach (IsASHA st b) H) (hp : H'.Perm H)
    {f : AskFn P F} (hf : IsASHA st b f) {new : P} {p : Proposal P F} (hask : f H' new = .ok p)
    {k0 : Key} (hprev : p.prev = some k0) :
    k0.rung < b.maxR ∧ b.eta ≤ (H.filter (fun t => decide (Candidate st H k0.rung t))).length ∧
    ∃ t0 ∈ H, t0.key = k0 ∧ Candidate st H k0.rung t0 ∧
      ((∃ x0, lossOf st t0 = some x0 ∧ ∀ t ∈ H, Candidate st H k0.rung t →
          ∃ x, lossOf st t = some x ∧ PyFloat.le x0 x = true) ∨
        (st.ignoreErrors = true ∧ ∀ t ∈ H, Candidate st H k0.rung t → t.res = .error)) := by
  obtain ⟨sort, hs, rfl⟩ := hf
  simp only [ashaAsk] at hask
  cases ho : observe st H' with
  | error e => simp [ho] at hask
  | ok T =>
    simp only [ho] at hask
    cases hps : asyncPromotions b b.minR sort (dropDefault st (dropna T.rows)) with
    | error e => simp [hps] at hask
    | ok ps =>
      simp only [hps] at hask
      exact async_promotion (h.inv (.asha st b hbud)) hp ho hs hps hask hprev

/-- C23, asynchronous hyperband. -/
theorem C23_ahb_promotion_partial {st : Settings} {budget : Nat → F} {bs : Nat → Bracket F} {nb : Nat}
    (hbud : ∀ i, i < nb → Agrees (bs i) budget) (hnb : 0 < nb) {H H' : List (Rec P F)}
    (h : Reach (IsAHB st bs nb) H) (hp : H'.Perm H) {f : AskFn P F} (hf : IsAHB st bs nb f) {new : P}
    {p : Proposal P F} (hask : f H' new = .ok p) {k0 : Key} (hprev : p.prev = some k0) :
    ∃ i, i < nb ∧ k0.rung < (bs i).maxR ∧
    (bs i).eta ≤ (H.filter (fun t => decide (Candidate st H k0.rung t))).length ∧
    ∃ t0 ∈ H, t0.key = k0 ∧ Candidate st H k0.rung t0 ∧
      ((∃ x0, lossOf st t0 = some x0 ∧ ∀ t ∈ H, Candidate st H k0.rung t →
          ∃ x, lossOf st t = some x ∧ PyFloat.le x0 x = true) ∨
        (st.ignoreErrors = true ∧ ∀ t ∈ H, Candidate st H k0.rung t → t.res = .error)) := by
  obtain ⟨sort, cur, hs, hcur, rfl⟩ := hf
  simp only [ahbAsk] at hask
  cases ho : observe st H' with
  | error e => simp [ho] at hask
  | ok T =>
    simp only [ho] at hask
    cases hps : asyncPromotions (bs cur) 0 sort (dropDefault st (dropna T.rows)) with
    | error e => simp [hps] at hask
    | ok ps =>
      simp only [hps] at hask
      exact ⟨cur, hcur, async_promotion (h.inv (.ahb st bs nb hbud hnb)) hp ho hs hps hask hprev⟩

set_option maxRecDepth 4000 in
example : Reach (IsASHA {} oneBracket) demo ∧
    ashaAsk {} oneBracket argsort demo 12 = .ok ⟨⟨1, 1⟩, 11, 2, some ⟨1, 0⟩⟩ :=
  ⟨demo_asha, by decide +kernel⟩

/-- Two configurations at rung 0 that both failed. -/
def failedDemo : List (Rec Nat Nat) :=
  [⟨⟨0, 0⟩, 10, 1, .error⟩, ⟨⟨1, 0⟩, 11, 1, .error⟩]

set_option maxRecDepth 8000 in
/-- **C23 fails** for ASHA with `ignore_errors`: when all configurations of a rung failed, one of
the failed configurations is promoted. -/
theorem C23_asha_promotes_failed_fails :
    ∃ (H : List (Rec Nat Nat)), Reach (IsASHA { ignoreErrors := true } oneBracket) H ∧
      (∀ t ∈ H, t.res = .error) ∧
      ∃ p, ashaAsk { ignoreErrors := true } oneBracket argsort H 12 = .ok p ∧ p.prev = some ⟨0, 0⟩ := by
  refine ⟨failedDemo, ?_, by decide, ⟨⟨0, 1⟩, 10, 2, some ⟨0, 0⟩⟩, by decide +kernel, rfl⟩
  have hf : IsASHA (P := Nat) { ignoreErrors := true } oneBracket
    (ashaAsk { ignoreErrors := true } oneBracket argsort) := ⟨_, argsort_sorts, rfl⟩
  have h1 : Reach (IsASHA (P := Nat) { ignoreErrors := true } oneBracket) [⟨⟨0, 0⟩, 10, 1, .pending⟩] :=
    .ask (p := ⟨⟨0, 0⟩, 10, 1, none⟩) (new := 10) .start hf (.refl _) (by decide +kernel)
  have h2 : Reach (IsASHA (P := Nat) { ignoreErrors := true } oneBracket)
      [⟨⟨0, 0⟩, 10, 1, .pending⟩, ⟨⟨1, 0⟩, 11, 1, .pending⟩] :=
    .ask (p := ⟨⟨1, 0⟩, 11, 1, none⟩) (new := 11) h1 hf (.refl _) (by decide +kernel)
  have h3 := Reach.report ⟨0, 0⟩ .error h2 (by simp)
  exact Reach.report ⟨1, 0⟩ .error h3 (by simp)

/-- C23, the asynchronous policy itself: of the `n` rows of a rung it selects `n / eta`, none above
the highest rung, and every row it leaves out is at most as good as each one it selects. -/
theorem C23_async_eligible {b : Bracket F} {firstR : Nat} {sort : Argsort} (hs : Sorts sort)
    {rows : List (Row P F)} {ps : List (Nat × List Nat)}
    (h : asyncPromotions b firstR sort rows = .ok ps) {r : Nat} {l : List Nat} (hm : (r, l) ∈ ps) :
    r < b.maxR ∧ l.length = (atRung rows r).length / b.eta ∧
    ∃ sel rest : List (Row P F), (sel ++ rest).Perm (atRung rows r) ∧ l = sel.map (·.cfg) ∧
      ∀ x ∈ sel, ∀ y ∈ rest, sortLe x.float y.float := by
  obtain ⟨h1, h2, _⟩ := asyncGo_mem _ h hm
  rw [pyTake_nat] at h2
  have hperm := pick_perm hs (atRung rows r)
  refine ⟨List.mem_range.1 h1, ?_, _, (pick (atRung rows r) (sort (floats (atRung rows r)))).drop
    ((atRung rows r).length / b.eta), ?_, h2, ?_⟩
  · rw [h2, List.length_map, List.length_take, hperm.length_eq]
    exact Nat.min_eq_left (Nat.div_le_self _ _)
  · rw [List.take_append_drop]; exact hperm
  · have := pick_sorted hs (atRung rows r)
    rw [← List.take_append_drop ((atRung rows r).length / b.eta)
      (pick (atRung rows r) (sort (floats (atRung rows r))))] at this
    exact (List.pairwise_append.1 this).2.2

example : asyncPromotions oneBracket 0 argsort
    [(⟨0, 10, 1, 0, .val (.num 5)⟩ : Row Nat Nat), ⟨1, 11, 1, 0, .val (.num 3)⟩] = .ok [(0, [1])] := by
  decide +kernel

/-! ## C25, C26: brackets -/

section

variable {lo hi : ℝ} {eta : ℕ} {isInt : Bool} {s : ℕ}

/-- C25: rungs of a bracket and their budgets, for a float fidelity: the rungs are `s .. limit`
where `limit` is the largest number with `lo * eta ^ limit ≤ hi`; the top rung has the maximum
budget, each rung has `eta` times the budget of the one below, no budget is below `lo * eta ^ s`. -/
theorem C25_rung_budgets (hlo : 0 < lo) (hle : lo ≤ hi) (he : 2 ≤ eta)
    (hs : lo * (eta : ℝ) ^ s ≤ hi) :
    let b := bracketOf lo hi eta false s
    b.minR = s ∧ s ≤ b.maxR ∧ lo * (eta : ℝ) ^ b.maxR ≤ hi ∧ hi < lo * (eta : ℝ) ^ (b.maxR + 1) ∧
    b.budget b.maxR = hi ∧
    (∀ r, s ≤ r → r < b.maxR → b.budget (r + 1) = eta * b.budget r ∧ b.budget r < b.budget (r + 1)) ∧
    ∀ r, s ≤ r → r ≤ b.maxR → lo * (eta : ℝ) ^ r ≤ b.budget r ∧ b.budget r ≤ hi := by
  intro b
  obtain ⟨hsp1, hsp2⟩ := stoppingLimit_spec hlo hle he
  have heta1 : (1 : ℝ) < eta := by exact_mod_cast he
  have heta : (0 : ℝ) < eta := by linarith
  have hsl : s ≤ limit lo hi eta := by
    by_contra hn
    push Not at hn
    have h1 : (eta : ℝ) ^ (limit lo hi eta + 1) ≤ (eta : ℝ) ^ s := pow_le_pow_right₀ heta1.le hn
    have h2 := mul_le_mul_of_nonneg_left h1 hlo.le
    simp only [limit] at h2
    linarith
  have hmax : b.maxR = limit lo hi eta := bracketOf_maxR hlo hle he hsl
  have hmin : b.minR = s := bracketOf_minR hlo hle he hsl
  have hbud : ∀ r, s ≤ r → r ≤ limit lo hi eta →
      b.budget r = hi / (eta : ℝ) ^ (limit lo hi eta - r) := by
    intro r h1 h2
    have := bracketOf_budget (isInt := false) hlo hle he hsl h1 h2
    simpa using this
  have hhi : 0 < hi := by linarith
  have hpos : ∀ r, s ≤ r → r ≤ limit lo hi eta → 0 < b.budget r := by
    intro r h1 h2; rw [hbud r h1 h2]; positivity
  have hstep : ∀ r, s ≤ r → r < limit lo hi eta → b.budget (r + 1) = eta * b.budget r := by
    intro r h1 h2
    rw [hbud r h1 (by omega), hbud (r + 1) (by omega) h2,
      show limit lo hi eta - r = (limit lo hi eta - (r + 1)) + 1 by omega, pow_succ]
    field_simp
  refine ⟨hmin, by rw [hmax]; exact hsl, by rw [hmax]; exact hsp1, by rw [hmax]; exact hsp2, ?_, ?_, ?_⟩
  · rw [hmax, hbud _ hsl (Nat.le_refl _)]; simp
  · intro r h1 h2
    rw [hmax] at h2
    refine ⟨hstep r h1 h2, ?_⟩
    rw [hstep r h1 h2]
    have := hpos r h1 (by omega)
    nlinarith
  · intro r h1 h2
    rw [hmax] at h2
    rw [hbud r h1 h2]
    have hp : (0 : ℝ) < (eta : ℝ) ^ (limit lo hi eta - r) := by positivity
    constructor
    · rw [le_div_iff₀ hp, mul_assoc, ← pow_add, show r + (limit lo hi eta - r) = limit lo hi eta by omega]
      exact hsp1
    · rw [div_le_iff₀ hp]
      have : (1 : ℝ) ≤ (eta : ℝ) ^ (limit lo hi eta - r) := one_le_pow₀ heta1.le
      nlinarith

example : (0 : ℝ) < 1 ∧ (1 : ℝ) ≤ 27 ∧ 2 ≤ 3 ∧ (1 : ℝ) * ((3 : ℕ) : ℝ) ^ 1 ≤ 27 := by norm_num

/-- C25 for an integer fidelity `lo .. hi`: budgets are the integer parts; they are integers between
`lo` and `hi`, strictly increasing, and the top rung has the maximum budget. The factor between
consecutive budgets is `eta` up to rounding down. -/
theorem C25_rung_budgets_int {lo hi : ℕ} (hlo : 0 < lo) (hle : lo ≤ hi) (he : 2 ≤ eta)
    (hs : lo * eta ^ s ≤ hi) :
    let b := bracketOf lo hi eta true s
    b.minR = s ∧ s ≤ b.maxR ∧ lo * eta ^ b.maxR ≤ hi ∧ hi < lo * eta ^ (b.maxR + 1) ∧
    b.budget b.maxR = hi ∧
    ∀ r, s ≤ r → r ≤ b.maxR → b.budget r = (hi / eta ^ (b.maxR - r) : ℕ) ∧
      lo * eta ^ r ≤ hi / eta ^ (b.maxR - r) ∧
      (r < b.maxR → hi / eta ^ (b.maxR - r) = hi / eta ^ (b.maxR - (r + 1)) / eta ∧
        hi / eta ^ (b.maxR - r) < hi / eta ^ (b.maxR - (r + 1))) := by
  intro b
  have hlo' : (0 : ℝ) < lo := by exact_mod_cast hlo
  have hle' : (lo : ℝ) ≤ hi := by exact_mod_cast hle
  obtain ⟨hsp1, hsp2⟩ := stoppingLimit_spec hlo' hle' he
  have heta1 : (1 : ℝ) < eta := by exact_mod_cast he
  have hsl : s ≤ limit lo hi eta := by
    by_contra hn
    push Not at hn
    have h1 : (eta : ℝ) ^ (limit lo hi eta + 1) ≤ (eta : ℝ) ^ s := pow_le_pow_right₀ heta1.le hn
    have h2 := mul_le_mul_of_nonneg_left h1 hlo'.le
    have h3 : (lo : ℝ) * (eta : ℝ) ^ s ≤ hi := by exact_mod_cast hs
    simp only [limit] at h2
    linarith
  have hmax : b.maxR = limit lo hi eta := bracketOf_maxR hlo' hle' he hsl
  have hmin : b.minR = s := bracketOf_minR hlo' hle' he hsl
  have hsp1' : lo * eta ^ limit lo hi eta ≤ hi := by exact_mod_cast hsp1
  have hsp2' : hi < lo * eta ^ (limit lo hi eta + 1) := by exact_mod_cast hsp2
  have hbud : ∀ r, s ≤ r → r ≤ limit lo hi eta →
      b.budget r = (hi / eta ^ (limit lo hi eta - r) : ℕ) := by
    intro r h1 h2
    have := bracketOf_budget (isInt := true) hlo' hle' he hsl h1 h2
    have e : b.budget r = ((⌊(hi : ℝ) / (eta : ℝ) ^ (limit lo hi eta - r)⌋ : ℤ) : ℝ) := by
      simpa using this
    rw [e]
    have h4 : ⌊(hi : ℝ) / (eta : ℝ) ^ (limit lo hi eta - r)⌋
        = ((hi / eta ^ (limit lo hi eta - r) : ℕ) : ℤ) := by
      have e5 : ((eta : ℝ) ^ (limit lo hi eta - r)) = ((eta ^ (limit lo hi eta - r) : ℕ) : ℝ) := by
        push_cast; rfl
      rw [e5, Int.floor_div_natCast, Int.floor_natCast]
      norm_cast
    rw [h4]
    push_cast
    rfl
  refine ⟨hmin, by rw [hmax]; exact hsl, by rw [hmax]; exact hsp1', by rw [hmax]; exact hsp2', ?_, ?_⟩
  · rw [hmax, hbud _ hsl (Nat.le_refl _)]; simp
  · intro r h1 h2
    rw [hmax] at h2 ⊢
    have hlow : ∀ r, r ≤ limit lo hi eta → lo * eta ^ r ≤ hi / eta ^ (limit lo hi eta - r) := by
      intro r h2
      rw [Nat.le_div_iff_mul_le (Nat.pow_pos (by omega)), Nat.mul_assoc, ← pow_add,
        show r + (limit lo hi eta - r) = limit lo hi eta by omega]
      exact hsp1'
    refine ⟨hbud r h1 h2, hlow r h2, fun h3 => ?_⟩
    have e1 : hi / eta ^ (limit lo hi eta - r) = hi / eta ^ (limit lo hi eta - (r + 1)) / eta := by
      rw [Nat.div_div_eq_div_mul, ← pow_succ,
        show limit lo hi eta - (r + 1) + 1 = limit lo hi eta - r by omega]
    refine ⟨e1, ?_⟩
    rw [e1]
    have hpos : 0 < hi / eta ^ (limit lo hi eta - (r + 1)) :=
      Nat.lt_of_lt_of_le (Nat.mul_pos hlo (Nat.pow_pos (by omega))) (hlow (r + 1) h3)
    exact Nat.div_lt_self hpos (by omega)

example : 0 < 2 ∧ 2 ≤ 100 ∧ 2 ≤ 3 ∧ 2 * 3 ^ 1 ≤ 100 := by decide

/-- C26: the capacities of a bracket: `n` configurations at a rung leave exactly `n / eta`, without
remainder, for the next one; all capacities are positive. -/
theorem C26_bracket_capacities (hlo : 0 < lo) (hle : lo ≤ hi) (he : 2 ≤ eta)
    (hs : s ≤ limit lo hi eta) :
    let b := bracketOf lo hi eta isInt s
    (∀ r, b.minR ≤ r → r < b.maxR → b.cap (r + 1) = b.cap r / eta ∧ b.cap r = eta * b.cap (r + 1)) ∧
    (∀ r, b.minR ≤ r → r ≤ b.maxR → 0 < b.cap r) ∧
    b.size = (limit lo hi eta + 1) / (limit lo hi eta - s + 1) * eta ^ (limit lo hi eta - s) := by
  intro b
  have hg : Good b := bracketOf_good hlo hle he hs
  refine ⟨fun r h1 h2 => ⟨(hg.cap_div h1 h2).symm, hg.next r h1 h2⟩, hg.cap_pos, ?_⟩
  have hmin : b.minR = s := bracketOf_minR hlo hle he hs
  rw [Bracket.size, hmin]
  exact bracketOf_cap hlo hle he hs (Nat.le_refl _) hs

/-- C26: the brackets that hyperband creates for `s = 0 .. limit` meet what the theorems of this
file assume of brackets: capacities shrink by `eta`, and all brackets assign the same budget to the
same rung. -/
theorem C26_code_brackets (hlo : 0 < lo) (hle : lo ≤ hi) (he : 2 ≤ eta) :
    (∀ i, i < limit lo hi eta + 1 → Good (bracketOf lo hi eta isInt i)) ∧
    (∀ i, i < limit lo hi eta + 1 →
      Agrees (bracketOf lo hi eta isInt i) (bracketOf lo hi eta isInt 0).budget) ∧
    (bracketOf lo hi eta isInt 0).maxR + 1 = limit lo hi eta + 1 := by
  refine ⟨fun i hi' => bracketOf_good hlo hle he (by omega), fun i hi' => ?_, ?_⟩
  · refine ⟨(bracketOf_good hlo hle he (by omega)).le, fun r h1 h2 => ?_⟩
    rw [bracketOf_minR hlo hle he (by omega)] at h1
    rw [bracketOf_maxR hlo hle he (by omega)] at h2
    rw [bracketOf_budget hlo hle he (by omega) h1 h2,
      bracketOf_budget hlo hle he (by omega) (by omega) h2]
  · rw [bracketOf_maxR hlo hle he (by omega)]

end

/-! ## C27: finished brackets -/

/-- Every configuration of the bracket has started: its lowest rung has all its trials. -/
theorem base_full {bs : Nat → Bracket F} {nb off : Nat} {H : List (Rec P F)} (hO : Occ bs nb off H)
    {k : Nat} (hstart : ∀ c, sliceStart bs nb off k ≤ c → c < sliceStart bs nb off (k + 1) →
      ∃ t ∈ H, t.key.cfg = c) :
    evaluatedAt H (sliceStart bs nb off k) (bs (k % nb)).size (bs (k % nb)).minR
      = (bs (k % nb)).cap (bs (k % nb)).minR := by
  have : evaluatedAt H (sliceStart bs nb off k) (bs (k % nb)).size (bs (k % nb)).minR
      = (List.range' (sliceStart bs nb off k) (bs (k % nb)).size).length := by
    simp only [evaluatedAt]
    rw [List.countP_eq_length]
    intro c hc
    rw [List.mem_range'_1] at hc
    have h2 : c < sliceStart bs nb off (k + 1) := hc.2
    obtain ⟨t, ht, rfl⟩ := hstart c hc.1 h2
    have hr := hO.range k t ht hc.1 h2
    have hm := hO.contiguous (c := t.key.cfg) hc.1 h2 (t.key.rung - (bs (k % nb)).minR)
      (bs (k % nb)).minR (Nat.le_refl _) (by
        rw [show (bs (k % nb)).minR + (t.key.rung - (bs (k % nb)).minR) = t.key.rung by omega]
        exact List.mem_map.2 ⟨t, ht, rfl⟩)
    simpa using hm
  rw [this, List.length_range']
  rfl

theorem budget_iff {st : Settings} {budget : Nat → F} {bs : Nat → Bracket F} {nb : Nat}
    {H H' : List (Rec P F)} {T : Table P F} (hI : Inv budget H) (hO : Occ bs nb st.offset H)
    (hp : H'.Perm H) (ho : observe st H' = .ok T) {k : Nat}
    (hstart : ∀ c, sliceStart bs nb st.offset k ≤ c → c < sliceStart bs nb st.offset (k + 1) →
      ∃ t ∈ H, t.key.cfg = c) :
    budgetUsed (bs (k % nb)) ((sliceRows bs nb st.offset T k).map (·.rung))
        < (rungTrace (bs (k % nb))).sum ↔
      ∃ r, (bs (k % nb)).minR ≤ r ∧ r ≤ (bs (k % nb)).maxR ∧
        evaluatedAt H (sliceStart bs nb st.offset k) (bs (k % nb)).size r < (bs (k % nb)).cap r := by
  have hcount : ∀ r, (bs (k % nb)).minR ≤ r →
      ((sliceRows bs nb st.offset T k).map (·.rung)).countP
          (fun x => decide (r ≤ x ∧ x ≤ (bs (k % nb)).maxR))
        = evaluatedAt H (sliceStart bs nb st.offset k) (bs (k % nb)).size r := by
    intro r hr
    rw [← reached_slice hI hO hp ho k hr, List.countP_map]
    rfl
  rw [budget_test]
  · constructor
    · rintro ⟨r, h1, h2, h3⟩; exact ⟨r, h1, h2, by rw [← hcount r h1]; exact h3⟩
    · rintro ⟨r, h1, h2, h3⟩; exact ⟨r, h1, h2, by rw [hcount r h1]; exact h3⟩
  · intro r h1 h2
    rw [hcount r h1]; exact hO.quota k r h1 h2
  · rw [hcount _ (Nat.le_refl _)]; exact base_full hO hstart

/-- C27: in every history of hyperband, for a bracket all of whose configurations have started, the
budget spent reaches the budget of the bracket exactly if every rung has all the trials the bracket
has places for. -/
theorem C27_bracket_finished {st : Settings} {budget : Nat → F} {bs : Nat → Bracket F} {nb : Nat}
    (hbud : ∀ i, i < nb → Agrees (bs i) budget) (hg : ∀ i, i < nb → Good (bs i)) (hnb : 0 < nb)
    {H H' : List (Rec P F)} (h : Reach (IsHB st bs nb) H) (hp : H'.Perm H) {T : Table P F}
    (ho : observe st H' = .ok T) (k : Nat)
    (hstart : ∀ c, sliceStart bs nb st.offset k ≤ c → c < sliceStart bs nb st.offset (k + 1) →
      ∃ t ∈ H, t.key.cfg = c) :
    ¬ budgetUsed (bs (k % nb)) (((T.rows.drop (sliceStart bs nb st.offset k)).take
        (bs (k % nb)).size).map (·.rung)) < (rungTrace (bs (k % nb))).sum ↔
      ∀ r, (bs (k % nb)).minR ≤ r → r ≤ (bs (k % nb)).maxR →
        evaluatedAt H (sliceStart bs nb st.offset k) (bs (k % nb)).size r = (bs (k % nb)).cap r := by
  have hI := h.inv (.hb st bs nb hbud hnb)
  have hO := h.occ hbud hg hnb
  rw [budget_iff hI hO hp ho hstart]
  push Not
  constructor
  · intro hh r h1 h2
    exact Nat.le_antisymm (hO.quota k r h1 h2) (hh r h1 h2)
  · intro hh r h1 h2
    exact Nat.le_of_eq (hh r h1 h2).symm

example : (∃ T, observe {} demo = .ok T ∧ budgetUsed (twoRungs 0) (T.rows.map (·.rung)) = 0) ∧
    (rungTrace (twoRungs 0)).sum = 1 ∧ ∀ c, sliceStart twoRungs 2 0 0 ≤ c →
      c < sliceStart twoRungs 2 0 1 → ∃ t ∈ demo, t.key.cfg = c := by
  refine ⟨⟨_, rfl, by decide⟩, by decide, ?_⟩
  intro c _ h2
  have h3 : c < 2 := h2
  have : ∀ c : Fin 2, ∃ t ∈ demo, t.key.cfg = c.val := by decide
  exact this ⟨c, h3⟩

/-! ## C53: the optimizers answer -/

theorem hb_loop_start {bs : Nat → Bracket F} {nb : Nat} {st : Settings} {T : Table P F} :
    bracketRows st T.rows = T.rows.drop (sliceStart bs nb st.offset 0) := by
  rw [bracketRows_eq]; rfl

/-- C53: hyperband answers on every history without failed evaluations, or where failures have a
replacement loss. -/
theorem C53_hb_answers_partial {st : Settings} {budget : Nat → F} {bs : Nat → Bracket F} {nb : Nat}
    (hbud : ∀ i, i < nb → Agrees (bs i) budget) (hg : ∀ i, i < nb → Good (bs i)) (hnb : 0 < nb)
    {H H' : List (Rec P F)} (h : Reach (IsHB st bs nb) H) (hp : H'.Perm H) {f : AskFn P F}
    (hf : IsHB st bs nb f) (hloss : ∀ t ∈ H, t.res = .error →
      st.ignoreErrors = false ∧ st.lossOnError ≠ none) (new : P) : ∃ p, f H' new = .ok p := by
  obtain ⟨sort, hs, rfl⟩ := hf
  have hI := h.inv (.hb st bs nb hbud hnb)
  have hO := h.occ hbud hg hnb
  obtain ⟨T, ho⟩ := observe_total (st := st) hloss hp
  have hstr := hasError_false (no_strings hloss hI hp ho)
  have hdrop : ∀ k, dropDefault st (sliceRows bs nb st.offset T k) = sliceRows bs nb st.offset T k :=
    fun k => dropDefault_slice (rows_label hI hp ho) (offset_le hg hnb k) _
  have hall : ∀ k, ∃ ps, syncPromotions (bs (k % nb)) sort false (sliceRows bs nb st.offset T k) = .ok ps :=
    fun k => sync_total hI hO hp ho k (hg _ (Nat.mod_lt _ hnb))
  obtain ⟨⟨cur, ps⟩, hres⟩ := hbLoop_total hdrop hall _ 0 rfl
  have hres' := hres
  obtain ⟨k', hend⟩ := hbLoop_slices hg hnb hdrop _ 0 cur ps rfl hres
  have hok : PromoOK T ps := syncPromotions_ok (fun x hx => by
    exact List.mem_of_mem_drop (List.mem_of_mem_take hx)) hend.sync
  rw [← hb_loop_start, Nat.zero_mod] at hres'
  simp only [hbAsk, ho, hstr, hres']
  exact getConfig_total hI hp ho hok new

/-- C53 for successive halving. -/
theorem C53_sh_answers_partial {st : Settings} {budget : Nat → F} {b : Bracket F}
    (hbud : Agrees b budget) (hg : Good b)
    {H H' : List (Rec P F)} (h : Reach (IsSH st b) H) (hp : H'.Perm H) {f : AskFn P F}
    (hf : IsSH st b f) (hloss : ∀ t ∈ H, t.res = .error →
      st.ignoreErrors = false ∧ st.lossOnError ≠ none) (new : P) : ∃ p, f H' new = .ok p := by
  rw [isSH_eq] at h hf
  exact C53_hb_answers_partial (fun _ _ => hbud) (fun _ _ => hg) (by omega) h hp hf hloss new

theorem async_answers {st : Settings} {budget : Nat → F} {b : Bracket F} {H H' : List (Rec P F)}
    {sort : Argsort} (hI : Inv budget H) (hp : H'.Perm H)
    (hloss : ∀ t ∈ H, t.res = .error → st.ignoreErrors = false ∧ st.lossOnError ≠ none) (new : P) :
    ∃ T ps p, observe st H' = .ok T ∧
      asyncPromotions b 0 sort (dropDefault st (dropna T.rows)) = .ok ps ∧
      getConfigAndIds st b T ps new = .ok p := by
  obtain ⟨T, ho⟩ := observe_total (st := st) hloss hp
  have hstr := no_strings hloss hI hp ho
  obtain ⟨ps, hps⟩ := asyncGo_total (eta := b.eta) (sort := sort)
    (rows := dropDefault st (dropna T.rows))
    (fun x hx => hstr x (dropna_subset _ (dropDefault_subset _ _ hx))) (List.range b.maxR)
  obtain ⟨p, hget⟩ := getConfig_total (b := b) hI hp ho (asyncPromotions_ok (b := b) hps) new
  exact ⟨T, ps, p, ho, hps, hget⟩

/-- C53 for ASHA without early stopping (`early_stopping_rate = 0`, so the lowest rung is 0). -/
theorem C53_asha_answers_partial {st : Settings} {budget : Nat → F} {b : Bracket F}
    (hbud : Agrees b budget) (hmin : b.minR = 0)
    {H H' : List (Rec P F)} (h : Reach (IsASHA st b) H) (hp : H'.Perm H) {f : AskFn P F}
    (hf : IsASHA st b f) (hloss : ∀ t ∈ H, t.res = .error →
      st.ignoreErrors = false ∧ st.lossOnError ≠ none) (new : P) : ∃ p, f H' new = .ok p := by
  obtain ⟨sort, hs, rfl⟩ := hf
  obtain ⟨T, ps, p, ho, hps, hget⟩ := async_answers (b := b) (sort := sort)
    (h.inv (.asha st b hbud)) hp hloss new
  simp only [ashaAsk, ho, hmin, hps]
  exact ⟨p, hget⟩

/-- C53 for asynchronous hyperband. -/
theorem C53_ahb_answers_partial {st : Settings} {budget : Nat → F} {bs : Nat → Bracket F} {nb : Nat}
    (hbud : ∀ i, i < nb → Agrees (bs i) budget) (hnb : 0 < nb)
    {H H' : List (Rec P F)} (h : Reach (IsAHB st bs nb) H) (hp : H'.Perm H) {f : AskFn P F}
    (hf : IsAHB st bs nb f) (hloss : ∀ t ∈ H, t.res = .error →
      st.ignoreErrors = false ∧ st.lossOnError ≠ none) (new : P) : ∃ p, f H' new = .ok p := by
  obtain ⟨sort, cur, hs, hcur, rfl⟩ := hf
  obtain ⟨T, ps, p, ho, hps, hget⟩ := async_answers (b := bs cur) (sort := sort)
    (h.inv (.ahb st bs nb hbud hnb)) hp hloss new
  simp only [ahbAsk, ho, hps]
  exact ⟨p, hget⟩

example : ∀ t ∈ demo, t.res = .error →
    ({} : Settings).ignoreErrors = false ∧ ({} : Settings).lossOnError ≠ none := by decide

set_option maxRecDepth 8000 in
/-- **C53 fails** for successive halving with `ignore_errors`: one ignored failure in a full rung
and every later ask raises `TypeError`. -/
theorem C53_sh_ignore_errors_fails :
    ∃ (H : List (Rec Nat Nat)), Reach (IsSH { ignoreErrors := true } oneBracket) H ∧
      shAsk { ignoreErrors := true } oneBracket argsort H 12 = .error .typeError := by
  refine ⟨[⟨⟨0, 0⟩, 10, 1, .error⟩, ⟨⟨1, 0⟩, 11, 1, .loss (.num 3)⟩], ?_, by decide +kernel⟩
  have hf : IsSH (P := Nat) { ignoreErrors := true } oneBracket
    (shAsk { ignoreErrors := true } oneBracket argsort) := ⟨_, argsort_sorts, rfl⟩
  have h1 : Reach (IsSH (P := Nat) { ignoreErrors := true } oneBracket) [⟨⟨0, 0⟩, 10, 1, .pending⟩] :=
    .ask (p := ⟨⟨0, 0⟩, 10, 1, none⟩) (new := 10) .start hf (.refl _) (by decide +kernel)
  have h2 : Reach (IsSH (P := Nat) { ignoreErrors := true } oneBracket)
      [⟨⟨0, 0⟩, 10, 1, .pending⟩, ⟨⟨1, 0⟩, 11, 1, .pending⟩] :=
    .ask (p := ⟨⟨1, 0⟩, 11, 1, none⟩) (new := 11) h1 hf (.refl _) (by decide +kernel)
  have h3 := Reach.report ⟨0, 0⟩ .error h2 (by simp)
  exact Reach.report ⟨1, 0⟩ (.loss (.num 3)) h3 (by simp)

/-- **C53 fails** for ASHA with an early stopping rate: on every history without trials at rung 0,
in particular at the very first ask, it raises `KeyError`. -/
theorem C53_asha_early_stopping_fails (st : Settings) (b : Bracket F) (sort : Argsort) (new : P)
    (hmin : 0 < b.minR) (hle : b.minR ≤ b.maxR) :
    ashaAsk st b sort ([] : List (Rec P F)) new = .error .keyError := by
  have hobs : observe st ([] : List (Rec P F)) = .ok Table.empty := rfl
  have hd : dropDefault st (dropna (Table.empty : Table P F).rows) = [] := by
    simp only [dropDefault]
    split <;> rfl
  simp only [ashaAsk, hobs, hd, asyncPromotions]
  obtain ⟨m, hm⟩ : ∃ m, b.maxR = m + 1 := ⟨b.maxR - 1, by omega⟩
  rw [hm, List.range_succ_eq_map]
  simp [asyncGo, atRung, hmin]

/-! ## C54: brackets are finished before new configurations start -/

/-- The trial `t` is the last one of its configuration and has no usable result yet: it is pending
or its loss is NaN. -/
def Open (st : Settings) (H : List (Rec P F)) (t : Rec P F) : Prop :=
  (∀ t' ∈ H, t'.key.cfg = t.key.cfg → t'.key.rung ≤ t.key.rung) ∧
    (t.res = .pending ∨ lossOf st t = some .nan)

/-- C54: when hyperband starts a new configuration, every bracket whose configurations have all
started is finished, i.e. all its rungs are full, or waits for an open evaluation. -/
theorem C54_new_only_if_blocked {st : Settings} {budget : Nat → F} {bs : Nat → Bracket F} {nb : Nat}
    (hbud : ∀ i, i < nb → Agrees (bs i) budget) (hg : ∀ i, i < nb → Good (bs i)) (hnb : 0 < nb)
    {H H' : List (Rec P F)} (h : Reach (IsHB st bs nb) H) (hp : H'.Perm H) {f : AskFn P F}
    (hf : IsHB st bs nb f) {new : P} {p : Proposal P F} (hask : f H' new = .ok p)
    (hprev : p.prev = none) (k : Nat)
    (hstart : ∀ c, sliceStart bs nb st.offset k ≤ c → c < sliceStart bs nb st.offset (k + 1) →
      ∃ t ∈ H, t.key.cfg = c) :
    (∀ r, (bs (k % nb)).minR ≤ r → r ≤ (bs (k % nb)).maxR →
      evaluatedAt H (sliceStart bs nb st.offset k) (bs (k % nb)).size r = (bs (k % nb)).cap r) ∨
    ∃ t ∈ H, InSlice (sliceStart bs nb st.offset k) (bs (k % nb)).size t ∧ Open st H t := by
  obtain ⟨sort, hs, rfl⟩ := hf
  have hI := h.inv (.hb st bs nb hbud hnb)
  have hO := h.occ hbud hg hnb
  simp only [hbAsk] at hask
  cases ho : observe st H' with
  | error e => simp [ho] at hask
  | ok T =>
    simp only [ho] at hask
    have hdrop : ∀ k, dropDefault st (sliceRows bs nb st.offset T k) = sliceRows bs nb st.offset T k :=
      fun k => dropDefault_slice (rows_label hI hp ho) (offset_le hg hnb k) _
    cases hl : hbLoop st bs nb sort (hasError T.rows) 0 (bracketRows st T.rows) with
    | error e => simp [hl] at hask
    | ok res =>
      obtain ⟨cur, ps⟩ := res
      simp only [hl] at hask
      have hl' : hbLoop st bs nb sort (hasError T.rows) (0 % nb)
          (T.rows.drop (sliceStart bs nb st.offset 0)) = .ok (cur, ps) := by
        rw [← hb_loop_start, Nat.zero_mod]; exact hl
      obtain ⟨k', hend⟩ := hbLoop_slices hg hnb hdrop _ 0 cur ps rfl hl'
      -- no promotion is offered
      have hprom : isPromotable (bs cur) ps = none := by
        cases hq : isPromotable (bs cur) ps with
        | none => rfl
        | some r =>
          simp only [getConfigAndIds, hq] at hask
          split at hask
          · cases hask
          · split at hask
            · cases hask
            · cases hask; simp at hprev
      have hcount := isPromotable_none hend.sync hprom
      have hshort : T.rows.length < sliceStart bs nb st.offset (k' + 1) := by
        rcases hend.stop with h0 | h0
        · exact absurd hcount h0
        · exact h0
      have hlen : sliceStart bs nb st.offset (k + 1) ≤ T.rows.length := by
        rw [rows_length hI hp ho]
        have hlt := sliceStart_lt (off := st.offset) hg hnb k
        have := (observe_bound hI hp ho (sliceStart bs nb st.offset (k + 1) - 1)).2
          (hstart _ (by omega) (by omega))
        omega
      have hkk : k < k' := by
        by_contra hge
        have := sliceStart_mono (off := st.offset) hg hnb (show k' + 1 ≤ k + 1 by omega)
        omega
      rcases (hend.skipped k (Nat.zero_le _) hkk).2 with hb | ⟨ps', hps', hz⟩
      · exact Or.inl ((C27_bracket_finished hbud hg hnb h hp ho k hstart).1 hb)
      · by_cases hfree : ∃ r, (bs (k % nb)).minR ≤ r ∧ r ≤ (bs (k % nb)).maxR ∧
            evaluatedAt H (sliceStart bs nb st.offset k) (bs (k % nb)).size r < (bs (k % nb)).cap r
        · right
          by_contra hno
          push Not at hno
          refine sync_progress hs hI hO hp ho k (hg _ (Nat.mod_lt _ hnb)) hps' ?_
            (base_full hO hstart) hfree hz
          intro x hx
          by_contra hnan
          have hxr : x ∈ T.rows := List.mem_of_mem_drop (List.mem_of_mem_take hx)
          obtain ⟨_, t, ht, hk, _, hloss, hm⟩ := observe_row hI hp ho ((mem_rows hI hp ho x).1 hxr)
          have hc : t.key.cfg = x.cfg := by rw [hk]
          have hin : InSlice (sliceStart bs nb st.offset k) (bs (k % nb)).size t := by
            have hx' : x.cfg ∈ (sliceRows bs nb st.offset T k).map (·.cfg) :=
              List.mem_map.2 ⟨x, hx, rfl⟩
            rw [slice_cfgs (rows_label hI hp ho), List.mem_range'_1] at hx'
            simp only [InSlice, hc]
            omega
          refine hno t ht hin ⟨fun t' ht' he => ?_, ?_⟩
          · rw [hk]; exact hm t' ht' (by rw [he, hc])
          · have hpf : x.perf = .val .nan := by
              cases hp' : x.perf with
              | error => simp [hp', Perf.isNan] at hnan
              | val y => cases y <;> simp_all [Perf.isNan, PyFloat.isNan]
            rw [hpf] at hloss
            cases hres : t.res with
            | pending => exact Or.inl rfl
            | loss y =>
              right
              rw [hres] at hloss
              simp only [getLoss, Except.ok.injEq, Perf.val.injEq] at hloss
              simp [lossOf, hres, hloss]
            | error =>
              right
              rw [hres] at hloss
              simp only [getLoss] at hloss
              split at hloss
              · cases hloss
              · rename_i hig
                cases hle : st.lossOnError with
                | none => simp [hle] at hloss
                | some y =>
                  simp only [hle, Except.ok.injEq, Perf.val.injEq] at hloss
                  simp [lossOf, hres, hig, hle, hloss]
        · left
          push Not at hfree
          intro r h1 h2
          exact Nat.le_antisymm (hO.quota k r h1 h2) (hfree r h1 h2)

/-- C54: a new configuration starts at the lowest rung of the bracket it belongs to. (A default
configuration that is evaluated first at the target fidelity belongs to none.) -/
theorem C54_new_at_lowest_rung {st : Settings} {budget : Nat → F} {bs : Nat → Bracket F} {nb : Nat}
    (hbud : ∀ i, i < nb → Agrees (bs i) budget) (hg : ∀ i, i < nb → Good (bs i)) (hnb : 0 < nb)
    {H H' : List (Rec P F)} (h : Reach (IsHB st bs nb) H) (hp : H'.Perm H) {f : AskFn P F}
    (hf : IsHB st bs nb f) {new : P} {p : Proposal P F} (hask : f H' new = .ok p)
    (hprev : p.prev = none) (k : Nat) (h1 : sliceStart bs nb st.offset k ≤ p.key.cfg)
    (h2 : p.key.cfg < sliceStart bs nb st.offset (k + 1)) :
    p.key.rung = (bs (k % nb)).minR := by
  have hnew := (C24_new_configuration (.hb st bs nb hbud hnb) h hp hf hask hprev).1
  have hO := (Reach.ask h hf hp hask).occ hbud hg hnb
  have hr := hO.range k p.toRec (by simp) h1 h2
  by_contra hne
  have hb := hO.below k p.toRec (by simp) h1 h2 (by
    have : (bs (k % nb)).minR ≤ p.key.rung := hr.1
    have hk : p.toRec.key.rung = p.key.rung := rfl
    omega)
  rw [List.map_append, List.mem_append] at hb
  have hk : p.toRec.key.rung = p.key.rung := rfl
  have hk' : p.toRec.key.cfg = p.key.cfg := rfl
  have hr1 : (bs (k % nb)).minR ≤ p.key.rung := hr.1
  rcases hb with hb | hb
  · obtain ⟨t, ht, he⟩ := List.mem_map.1 hb
    have := (hnew p.key.cfg).1 ⟨t, ht, by rw [he]; rfl⟩
    omega
  · simp only [List.map_cons, List.map_nil, List.mem_singleton] at hb
    have := congrArg Key.rung hb
    simp only at this
    omega

/-- Every configuration number from the first one on belongs to exactly one bracket. -/
theorem C54_one_bracket {bs : Nat → Bracket F} {nb off : Nat} (hg : ∀ i, i < nb → Good (bs i))
    (hnb : 0 < nb) (c : Nat) (hc : off ≤ c) :
    ∃ k, (sliceStart bs nb off k ≤ c ∧ c < sliceStart bs nb off (k + 1)) ∧
      ∀ j, sliceStart bs nb off j ≤ c → c < sliceStart bs nb off (j + 1) → j = k := by
  have hgrow : ∀ k, off + k ≤ sliceStart bs nb off k := by
    intro k
    induction k with
    | zero => exact Nat.le_refl _
    | succ k ih => have := sliceStart_lt (off := off) hg hnb k; omega
  have hex : ∃ k, c < sliceStart bs nb off (k + 1) := ⟨c, by have := hgrow (c + 1); omega⟩
  have hdec : ∀ n, c < sliceStart bs nb off n → 0 < n →
      ∃ k, sliceStart bs nb off k ≤ c ∧ c < sliceStart bs nb off (k + 1) := by
    intro n
    induction n with
    | zero => intro _ h; omega
    | succ n ih =>
      intro h1 _
      by_cases h2 : sliceStart bs nb off n ≤ c
      · exact ⟨n, h2, h1⟩
      · rcases Nat.eq_zero_or_pos n with h0 | h0
        · subst h0; exact absurd hc h2
        · exact ih (by omega) h0
  obtain ⟨k0, hk0⟩ := hex
  obtain ⟨k, hk⟩ := hdec (k0 + 1) hk0 (by omega)
  exact ⟨k, hk, fun j h1 h2 => slice_unique hg hnb h1 h2 hk.1 hk.2⟩

example : sliceStart twoRungs 2 0 1 = 2 ∧ sliceStart twoRungs 2 0 2 = 4 ∧
    sliceStart twoRungs 2 0 3 = 6 := by decide

/-- Two pending configurations fill the first bracket. -/
def blockedDemo : List (Rec Nat Nat) :=
  [⟨⟨0, 0⟩, 10, 1, .pending⟩, ⟨⟨1, 0⟩, 11, 1, .loss (.num 3)⟩]

set_option maxRecDepth 8000 in
example : hbAsk {} twoRungs 2 argsort blockedDemo 12 = .ok ⟨⟨2, 1⟩, 12, 2, none⟩ := by decide +kernel

end Neps.MF
