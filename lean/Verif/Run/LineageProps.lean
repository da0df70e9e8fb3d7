import Verif.Run.LineageSpec
import Verif.Run.Life
import Verif.Run.Witness

/-!
# C41, C71: the directories of trials
-/

namespace Neps.Run

open Neps.Store (Disk Handle)

theorem lookup_eq (W : World) : W.lookup = W.stored := rfl

/-! ## Predecessors are older -/

/-- What is known about the predecessor of a stored trial and about the trials workers hold. -/
structure LinInv (W : World) : Prop where
  older : ∀ id t p, (W.disk id).data = some t → t.metadata.previousTrialId = some p →
    ∃ l₁ l₂ t', W.ids = l₁ ++ id :: l₂ ∧ p ∈ l₁ ∧ W.stored p = some t' ∧
      t.metadata.previousTrialLocation = some t'.metadata.location
  noPrev : ∀ id t, (W.disk id).data = some t → t.metadata.previousTrialId = none →
    t.metadata.previousTrialLocation = none
  ver : ∀ id t, (W.disk id).data = some t → (W.disk id).ver.isSome
  loc : ∀ id t, (W.disk id).data = some t → t.metadata.location = "config_" ++ id
  held : ∀ w id h, (W.worker w).pc.handle = some (id, h) →
    ∃ t, (W.disk id).data = some t ∧ t.sampledPart = h.cur.sampledPart

theorem prepareSample_some {W : World} {s loc} (h : prepareSample W s = some loc) :
    (s.previousId = none ∧ loc = none) ∨
    ∃ p t, s.previousId = some p ∧ p ∈ W.ids ∧ W.stored p = some t ∧
      loc = some t.metadata.location := by
  unfold prepareSample at h
  split at h
  · split at h
    · next hp => simp only [Option.some.injEq] at h; exact Or.inl ⟨hp, h.symm⟩
    · next p hp =>
      split at h
      · next hm =>
        split at h
        · next hd hl =>
          simp only [Option.some.injEq] at h
          exact Or.inr ⟨p, hd.cur, hp, hm, by simp [World.stored, hl], h.symm⟩
        · simp at h
      · simp at h
  · simp at h

theorem stored_keep {fs st W w W'} (C : Coh fs W) (tr : Trans fs st W w W') {id t}
    (h : W.stored id = some t) :
    ∃ t', W'.stored id = some t' ∧ t'.sampledPart = t.sampledPart := by
  obtain ⟨⟨v, hv⟩, hd⟩ := stored_eq_some.mp h
  obtain ⟨t', h1, h2, h3, _⟩ := (C.effect tr).change C hd
  obtain ⟨v', hv'⟩ := Option.isSome_iff_exists.mp (h2 (by simp [hv]))
  exact ⟨t', stored_eq_some.mpr ⟨⟨v', hv'⟩, h1⟩, h3⟩

theorem sampledPart_prev {t t' : Trial} (h : t'.sampledPart = t.sampledPart) :
    t'.metadata.previousTrialId = t.metadata.previousTrialId ∧
    t'.metadata.previousTrialLocation = t.metadata.previousTrialLocation ∧
    t'.metadata.location = t.metadata.location ∧ t'.metadata.id = t.metadata.id ∧
    t'.config = t.config := by
  simp only [Trial.sampledPart, SampledPart.mk.injEq] at h
  exact ⟨h.2.2.2.1, h.2.2.2.2.1, h.2.2.1, h.2.1, h.1⟩

theorem LinInv.init : LinInv {} where
  older := by simp [Disk.empty]
  noPrev := by simp [Disk.empty]
  ver := by simp [Disk.empty]
  loc := by simp [Disk.empty]
  held := by simp [PC.handle]

/-- A trial stored after a transition was stored before with the same sampled part, or it has just
been created. -/
theorem Coh.origin {fs st W w W'} (C : Coh fs W) (tr : Trans fs st W w W') {id t}
    (ht : (W'.disk id).data = some t) :
    (∃ t₀, (W.disk id).data = some t₀ ∧ t.sampledPart = t₀.sampledPart ∧
      ∃ l, W'.ids = W.ids ++ l) ∨
    (∃ s loc now, prepareSample W s = some loc ∧ s.id ∉ W.ids ∧ W'.ids = W.ids ++ [s.id] ∧
      id = s.id ∧ t = newTrial w s loc now ∧ (W'.disk id).ver.isSome) := by
  cases tr with
  | idle => exact Or.inl ⟨t, ht, rfl, [], by simp⟩
  | kill => exact Or.inl ⟨t, ht, rfl, [], by simp⟩
  | torn s loc v n ha hpc hl hi hvn =>
    simp only [killW_disk, setDisk_disk] at ht
    by_cases e : id = s.id
    · simp only [e, if_true, (C.fresh s.id hi).2] at ht; simp at ht
    · simp only [e, if_false] at ht; exact Or.inl ⟨t, ht, rfl, [s.id], rfl⟩
  | step c _ ha s =>
    cases s with
    | idle => exact Or.inl ⟨t, ht, rfl, [], by simp⟩
    | move pc' m => exact Or.inl ⟨t, ht, rfl, [], by simp⟩
    | fetch id h hpc hl => exact Or.inl ⟨t, ht, rfl, [], by simp⟩
    | create s loc hpc hs hl hi hv =>
      by_cases e : id = s.id
      · subst e
        simp only [emit_disk, goto_disk, setDisk_disk, if_true, Option.some.injEq] at ht
        exact Or.inr ⟨s, loc, c.now, hl, hi, rfl, rfl, ht.symm, by simp⟩
      · simp only [emit_disk, goto_disk, setDisk_disk, e, if_false] at ht
        exact Or.inl ⟨t, ht, rfl, [s.id], rfl⟩
    | claimOk id' h hpc hv =>
      obtain ⟨h1, h2, h3, h4⟩ := C.holds w id' h (by rw [hpc]; rfl)
      simp only [emit_disk, setW_disk, setDisk_disk] at ht
      by_cases e : id = id'
      · simp only [e, if_true, Option.some.injEq] at ht
        subst e ht
        exact Or.inl ⟨h.cur, h4 hv, rfl, [], by simp⟩
      · simp only [e, if_false] at ht; exact Or.inl ⟨t, ht, rfl, [], by simp⟩
    | claimLost id h pc' n hpc hv ho => exact Or.inl ⟨t, ht, rfl, [], by simp⟩
    | evalErr id h e hpc he => exact Or.inl ⟨t, ht, rfl, [], by simp⟩
    | evalOk id h t r hpc he => exact Or.inl ⟨_, ht, rfl, [], by simp⟩
    | reportOk id' h t' r hpc hv =>
      obtain ⟨h1, h2, h3, h4⟩ := C.holds w id' h (by rw [hpc]; rfl)
      obtain ⟨dv, o, a, b, hr⟩ := C.result w id' h t' r hpc
      simp only [emit_disk, goto_disk, setDisk_disk] at ht
      by_cases e : id = id'
      · simp only [e, if_true, Option.some.injEq] at ht
        subst e ht
        exact Or.inl ⟨h.cur, h4 hv, (evalTrial_ok hr).1, [], by simp⟩
      · simp only [e, if_false] at ht; exact Or.inl ⟨t, ht, rfl, [], by simp⟩
    | budget t r pc' hpc ho => exact Or.inl ⟨_, ht, rfl, [], by simp⟩
    | logErr t r e hpc => exact Or.inl ⟨_, ht, rfl, [], by simp⟩

theorem LinInv.trans {fs st W w W'} (C : Coh fs W) (I : LinInv W) (tr : Trans fs st W w W') :
    LinInv W' := by
  have keepData : ∀ {id t}, (W.disk id).data = some t → ∃ t', (W'.disk id).data = some t' ∧
      ((W.disk id).ver.isSome → (W'.disk id).ver.isSome) ∧ t'.sampledPart = t.sampledPart := by
    intro id t h
    obtain ⟨t', h1, h2, h3, _⟩ := (C.effect tr).change C h
    exact ⟨t', h1, h2, h3⟩
  refine { older := ?_, noPrev := ?_, ver := ?_, loc := ?_, held := ?_ }
  · intro id t p ht hp
    rcases C.origin tr ht with ⟨t₀, h0, hs, l, hl⟩ | ⟨s, loc, now, hl, hi, hids, rfl, rfl, _⟩
    · obtain ⟨e1, e2, _⟩ := sampledPart_prev hs
      obtain ⟨l₁, l₂, t', h1, h2, h3, h4⟩ := I.older id t₀ p h0 (e1 ▸ hp)
      obtain ⟨t'', h5, h6⟩ := stored_keep C tr h3
      exact ⟨l₁, l₂ ++ l, t'', by simp [hl, h1], h2, h5, by
        rw [e2, h4, (sampledPart_prev h6).2.2.1]⟩
    · rcases prepareSample_some hl with ⟨h1, _⟩ | ⟨p', t', h1, h2, h3, rfl⟩
      · simp [newTrial, Trial.new, h1] at hp
      · simp only [newTrial, Trial.new, h1, Option.some.injEq] at hp
        subst hp
        obtain ⟨t'', h5, h6⟩ := stored_keep C tr h3
        exact ⟨W.ids, [], t'', hids, h2, h5, by
          rw [(sampledPart_prev h6).2.2.1]; rfl⟩
  · intro id t ht hp
    rcases C.origin tr ht with ⟨t₀, h0, hs, l, hl⟩ | ⟨s, loc, now, hl, hi, hids, rfl, rfl, _⟩
    · obtain ⟨e1, e2, _⟩ := sampledPart_prev hs
      rw [e2]; exact I.noPrev id t₀ h0 (e1 ▸ hp)
    · rcases prepareSample_some hl with ⟨_, rfl⟩ | ⟨p', t', h1, _⟩
      · rfl
      · simp [newTrial, Trial.new, h1] at hp
  · intro id t ht
    rcases C.origin tr ht with ⟨t₀, h0, hs, l, hl⟩ | ⟨s, loc, now, hl, hi, hids, rfl, rfl, hv⟩
    · obtain ⟨_, _, h2, _⟩ := keepData h0
      exact h2 (I.ver id t₀ h0)
    · exact hv
  · intro id t ht
    rcases C.origin tr ht with ⟨t₀, h0, hs, l, hl⟩ | ⟨s, loc, now, hl, hi, hids, rfl, rfl, hv⟩
    · rw [(sampledPart_prev hs).2.2.1]; exact I.loc id t₀ h0
    · rfl
  · intro w' id h hh
    have old : (W.worker w').pc.handle = some (id, h) →
        ∃ t, (W'.disk id).data = some t ∧ t.sampledPart = h.cur.sampledPart := by
      intro hh
      obtain ⟨t, h1, h2⟩ := I.held w' id h hh
      obtain ⟨t', h3, _, h4⟩ := keepData h1
      exact ⟨t', h3, h4.trans h2⟩
    by_cases hne : w' = w
    · subst hne
      have tr0 := tr
      cases tr with
      | idle => exact old hh
      | kill => exact old (by simpa using hh)
      | torn s loc v n ha hpc hl hi hvn => exact old (by simpa using hh)
      | step c _ ha s =>
        cases s with
        | idle => exact old hh
        | move pc' m => simp [m.handle_none] at hh
        | fetch id' h' hpc hl =>
          simp only [goto_worker, if_true, PC.handle, Option.some.injEq, Prod.mk.injEq] at hh
          obtain ⟨rfl, rfl⟩ := hh
          exact ⟨h'.cur, (load_ok hl).2, rfl⟩
        | create s loc hpc hs hl hi hv =>
          simp only [emit_worker, goto_worker, if_true, PC.handle, Option.some.injEq,
            Prod.mk.injEq] at hh
          obtain ⟨rfl, rfl⟩ := hh
          exact ⟨newTrial w' s loc c.now, by simp, rfl⟩
        | claimOk id' h' hpc hv =>
          simp only [emit_worker, setW_worker, if_true, PC.handle, Option.some.injEq,
            Prod.mk.injEq] at hh
          obtain ⟨rfl, rfl⟩ := hh
          exact ⟨h'.cur.setEvaluating c.now (workerName w'), by simp, rfl⟩
        | claimLost id' h' pc' n hpc hv ho =>
          simp only [emit_worker, setW_worker, if_true] at hh
          rcases ho with ⟨rfl, _⟩ | rfl | rfl <;> simp [PC.handle] at hh
        | evalErr id' h' e hpc he => simp [PC.handle] at hh
        | evalOk id' h' t r hpc he =>
          simp only [emit_worker, setW_worker, if_true, PC.handle, Option.some.injEq,
            Prod.mk.injEq] at hh
          obtain ⟨rfl, rfl⟩ := hh
          exact old (by rw [hpc]; rfl)
        | reportOk id' h' t' r hpc hv => simp [PC.handle] at hh
        | budget t r pc' hpc ho =>
          simp only [emit_worker, goto_worker, if_true] at hh
          rcases ho with ⟨rfl, _⟩ | ⟨_, _, rfl⟩ <;> simp [PC.handle] at hh
        | logErr t r e hpc => simp [PC.handle] at hh
    · rw [tr.other hne] at hh
      exact old hh

theorem linInv_run (fs st) {W : World} (C : Coh fs W) (I : LinInv W) (as : List Act) :
    Coh fs (run fs st W as) ∧ LinInv (run fs st W as) :=
  run_induction fs st (P := fun W => Coh fs W ∧ LinInv W)
    (fun _ _ _ I tr => ⟨I.1.trans tr, I.2.trans I.1 tr⟩) ⟨C, I⟩ as

/-! ## Walking back -/

theorem stored_ofData {W : World} (I : LinInv W) {id t} (h : (W.disk id).data = some t) :
    W.stored id = some t := by
  obtain ⟨v, hv⟩ := Option.isSome_iff_exists.mp (I.ver id t h)
  exact stored_eq_some.mpr ⟨⟨v, hv⟩, h⟩

/-- Walking back from a stored trial ends at the first trial of its lineage, after at most as many
rounds as there are older trials. -/
theorem walk_lineage {fs} {W : World} (C : Coh fs W) (I : LinInv W) (n : Nat) :
    ∀ id t l₁ l₂, W.ids = l₁ ++ id :: l₂ → l₁.length ≤ n → W.stored id = some t →
      ∀ t₀, t₀.sampledPart = t.sampledPart →
      ∃ r r', Lineage W id r ∧ walkBack W.lookup (n + 1) t₀ = .ok r' ∧
        r'.sampledPart = r.sampledPart := by
  induction n with
  | zero =>
    intro id t l₁ l₂ hids hlen hs t₀ h0
    have hn : t.metadata.previousTrialId = none := by
      cases hp : t.metadata.previousTrialId with
      | none => rfl
      | some p =>
        obtain ⟨k₁, k₂, t', e, hm, _⟩ := I.older id t p (stored_eq_some.mp hs).2 hp
        have hnd := C.nodup
        have : k₁ = l₁ := by
          have h1 : W.ids.idxOf id = l₁.length := by
            rw [hids, List.nodup_append] at hnd
            rw [hids, List.idxOf_append, if_neg (fun hm => hnd.2.2 id hm id (by simp) rfl)]
            simp
          have hnd := C.nodup
          have h2 : W.ids.idxOf id = k₁.length := by
            rw [e, List.nodup_append] at hnd
            rw [e, List.idxOf_append, if_neg (fun hm => hnd.2.2 id hm id (by simp) rfl)]
            simp
          rw [h1] at h2
          rw [hids] at e
          exact (List.append_inj e h2).1.symm
        subst this
        simp only [Nat.le_zero, List.length_eq_zero_iff] at hlen
        simp [hlen] at hm
    exact ⟨t, t₀, .first id t hs hn, by
      simp [walkBack, (sampledPart_prev h0).1, hn], h0⟩
  | succ n ih =>
    intro id t l₁ l₂ hids hlen hs t₀ h0
    cases hp : t.metadata.previousTrialId with
    | none =>
      exact ⟨t, t₀, .first id t hs hp, by simp [walkBack, (sampledPart_prev h0).1, hp], h0⟩
    | some p =>
      obtain ⟨k₁, k₂, t', e, hm, hst, _⟩ := I.older id t p (stored_eq_some.mp hs).2 hp
      have : k₁.length = l₁.length := by
        have hnd := C.nodup
        have h1 : W.ids.idxOf id = l₁.length := by
          rw [hids, List.nodup_append] at hnd
          rw [hids, List.idxOf_append, if_neg (fun hm => hnd.2.2 id hm id (by simp) rfl)]
          simp
        have hnd := C.nodup
        have h2 : W.ids.idxOf id = k₁.length := by
          rw [e, List.nodup_append] at hnd
          rw [e, List.idxOf_append, if_neg (fun hm => hnd.2.2 id hm id (by simp) rfl)]
          simp
        omega
      obtain ⟨m₁, m₂, hk⟩ := List.append_of_mem hm
      obtain ⟨r, r', h1, h2, h3⟩ := ih p t' m₁ (m₂ ++ id :: k₂) (by rw [e, hk]; simp)
        (by rw [hk] at this; simp at this; omega) hst t' rfl
      refine ⟨r, r', .next id t p r hs hp h1, ?_, h3⟩
      rw [walkBack, (sampledPart_prev h0).1, hp, lookup_eq]
      simp only [hst]
      exact h2

theorem Lineage.unique {W : World} {id r r'} (h : Lineage W id r) (h' : Lineage W id r') :
    r = r' := by
  induction h with
  | first id t hs hp =>
    cases h' with
    | first _ _ hs' _ => rw [hs] at hs'; exact Option.some.inj hs'
    | next _ _ p _ hs' hp' _ =>
      rw [hs] at hs'; cases hs'; rw [hp] at hp'; simp at hp'
  | next id t p r hs hp _ ih =>
    cases h' with
    | first _ _ hs' hp' => rw [hs] at hs'; cases hs'; rw [hp] at hp'; simp at hp'
    | next _ _ p' _ hs' hp' hl =>
      rw [hs] at hs'; cases hs'; rw [hp] at hp'; cases hp'; exact ih hl

theorem Lineage.root {W : World} {id r} (h : Lineage W id r) :
    ∃ k, W.stored k = some r ∧ r.metadata.previousTrialId = none := by
  induction h with
  | first id t hs hp => exact ⟨id, hs, hp⟩
  | next _ _ _ _ _ _ _ ih => exact ih

/-- The cache holds first trials of lineages and their locations. -/
def CacheOk (W : World) (cache : DirCache) : Prop :=
  ∀ id p, Dict.get cache id = some p →
    ∃ t, W.stored id = some t ∧ t.metadata.previousTrialId = none ∧ t.metadata.location = p

theorem CacheOk.run {fs st} {W : World} {cache} (C : Coh fs W) (I : LinInv W)
    (h : CacheOk W cache) (as : List Act) : CacheOk (run fs st W as) cache := by
  intro id p hg
  obtain ⟨t, h1, h2, h3⟩ := h id p hg
  obtain ⟨t', k1, k2, k3, _⟩ := run_keeps (st := st) C as (stored_eq_some.mp h1).2
  obtain ⟨e1, _, e2, _⟩ := sampledPart_prev k3
  exact ⟨t', stored_ofData (linInv_run fs st C I as).2 k1, by rw [e1, h2], by rw [e2, h3]⟩

/-- One call: it gives the location of the first trial of the lineage and keeps the cache right. -/
theorem initialDirOf_ok {fs} {W : World} {cache fuel} (C : Coh fs W) (I : LinInv W)
    (hc : CacheOk W cache) (hf : W.ids.length ≤ fuel) {id t t₀} (hs : W.stored id = some t)
    (h0 : t₀.sampledPart = t.sampledPart) :
    (∃ r, Lineage W id r ∧
      (initialDirOf W.lookup fuel cache t₀).1 = .ok r.metadata.location) ∧
    CacheOk W (initialDirOf W.lookup fuel cache t₀).2 := by
  have hid : t₀.metadata.id = id := by
    rw [(sampledPart_prev h0).2.2.2.1]; exact C.names id t (stored_eq_some.mp hs).2
  have hmem : id ∈ W.ids := by
    by_contra hn
    have := (stored_eq_some.mp hs).2
    rw [(C.fresh id hn).2] at this
    simp at this
  obtain ⟨l₁, l₂, hids⟩ := List.append_of_mem hmem
  have hlen : l₁.length + 1 ≤ fuel := by
    have := congrArg List.length hids
    simp at this; omega
  obtain ⟨n, rfl⟩ : ∃ n, fuel = n + 1 := ⟨fuel - 1, by omega⟩
  obtain ⟨r, r', h1, h2, h3⟩ := walk_lineage C I n id t l₁ l₂ hids (by omega) hs t₀ h0
  unfold initialDirOf
  rw [hid]
  cases hg : Dict.get cache id with
  | some p =>
    obtain ⟨t', k1, k2, k3⟩ := hc id p hg
    refine ⟨⟨r, h1, ?_⟩, hc⟩
    have := h1.unique (.first id t' k1 k2)
    subst this
    simp [k3]
  | none =>
    simp only [h2]
    obtain ⟨k, hk, hkp⟩ := h1.root
    obtain ⟨e1, _, e2, e3, _⟩ := sampledPart_prev h3
    refine ⟨⟨r, h1, by rw [e2]⟩, ?_⟩
    intro id' p hg'
    rw [Dict.get_set] at hg'
    split at hg'
    · next e =>
      simp only [Option.some.injEq] at hg'
      refine ⟨r, ?_, hkp, by rw [← hg', e2]⟩
      rw [e, e3, C.names k r (stored_eq_some.mp hk).2]
      exact hk
    · exact hc id' p hg'

theorem afterUnderscore_config (id : List Char) :
    afterUnderscore ("config_".toList ++ id) = id := by
  simp [afterUnderscore, List.dropWhile]

theorem startOf_meant {W : World} (I : LinInv W) {a id} (h : Meant W a id) :
    ∃ t t₀, W.stored id = some t ∧ startOf W W.lookup a = .ok t₀ ∧
      t₀.sampledPart = t.sampledPart := by
  cases a with
  | dir name =>
    obtain ⟨rfl, hs⟩ := h
    obtain ⟨t, ht⟩ := Option.isSome_iff_exists.mp hs
    refine ⟨t, t, ht, ?_, rfl⟩
    have : String.ofList (afterUnderscore ("config_" ++ id).toList) = id := by
      rw [String.toList_append, afterUnderscore_config, String.ofList_toList]
    simp only [startOf, this, lookup_eq, ht]
  | inProgress w =>
    obtain ⟨h, hpc⟩ := h
    obtain ⟨t, h1, h2⟩ := I.held w id h (by rw [hpc]; rfl)
    exact ⟨t, h.cur, stored_ofData I h1, by simp [startOf, hpc], h2.symm⟩

/-- Calls that mean no trial leave the cache right as well. -/
theorem cache_ok_call {fs} {W : World} {cache fuel} (C : Coh fs W) (I : LinInv W)
    (hc : CacheOk W cache) (hf : W.ids.length ≤ fuel) (a : DirArg) :
    CacheOk W (getInitialDirectory W fuel cache a).2 := by
  unfold getInitialDirectory
  cases hst : startOf W W.lookup a with
  | error e => exact hc
  | ok t₀ =>
    simp only
    cases a with
    | dir name =>
      simp only [startOf] at hst
      split at hst
      · next t ht =>
        simp only [Except.ok.injEq] at hst
        subst hst
        exact (initialDirOf_ok C I hc hf (lookup_eq W ▸ ht) rfl).2
      · simp at hst
    | inProgress w =>
      simp only [startOf] at hst
      split at hst
      · next id h hpc =>
        simp only [Except.ok.injEq] at hst
        subst hst
        obtain ⟨t, h1, h2⟩ := I.held w id h (by rw [hpc]; rfl)
        exact (initialDirOf_ok C I hc hf (stored_ofData I h1) h2.symm).2
      · simp at hst

theorem run_length_mono {fs st} {W : World} (C : Coh fs W) (as : List Act) :
    W.ids.length ≤ (run fs st W as).ids.length := by
  induction as generalizing W with
  | nil => exact Nat.le_refl _
  | cons a as ih =>
    have tr := act_trans fs st W a
    refine Nat.le_trans ?_ (ih (C.trans tr))
    rcases C.effect tr with ⟨h1⟩ | ⟨_, _, _, h1⟩ | ⟨_, _, _, _, h1⟩ | ⟨_, _, _, _, _, _, _, h1⟩ |
      ⟨_, _, _, _, _, _, _, _, _, _, _, _, h1⟩ <;> rw [h1] <;> simp

theorem session_inv {fs st fuel} (calls : List (List Act × DirArg)) :
    ∀ {W : World} {cache}, Coh fs W → LinInv W → CacheOk W cache →
      ((session fs st fuel W cache calls).1.ids.length ≤ fuel) →
      Coh fs (session fs st fuel W cache calls).1 ∧ LinInv (session fs st fuel W cache calls).1 ∧
      CacheOk (session fs st fuel W cache calls).1 (session fs st fuel W cache calls).2 ∧
      W.ids.length ≤ (session fs st fuel W cache calls).1.ids.length := by
  induction calls with
  | nil => intro W cache C I hc _; exact ⟨C, I, hc, Nat.le_refl _⟩
  | cons c calls ih =>
    obtain ⟨as, a⟩ := c
    intro W cache C I hc hf
    simp only [session] at hf ⊢
    obtain ⟨C', I'⟩ := linInv_run fs st C I as
    have hmono : ∀ (cs : List (List Act × DirArg)) (V : World) (k : DirCache), Coh fs V →
        V.ids.length ≤ (session fs st fuel V k cs).1.ids.length := by
      intro cs
      induction cs with
      | nil => intro V k _; exact Nat.le_refl _
      | cons c cs ihc =>
        intro V k CV
        obtain ⟨as', a'⟩ := c
        simp only [session]
        refine (run_length_mono (st := st) CV as').trans (ihc _ _ ?_)
        exact run_induction fs st (fun _ _ _ I t => I.trans t) CV as'
    have hlen := hmono calls (run fs st W as)
      (getInitialDirectory (run fs st W as) fuel cache a).2 C'
    have hk := cache_ok_call C' I' (hc.run C I as) (hlen.trans hf) a
    obtain ⟨r1, r2, r3, r4⟩ := ih C' I' hk hf
    exact ⟨r1, r2, r3, (run_length_mono (st := st) C as).trans r4⟩

/-- **C41 (partial)**: in a process that works on one run only, after any history of worker steps
(of any number of workers, with kills) and of calls of `get_initial_directory`, a call for a trial of
the run ends (within as many rounds as there are trials) and returns the directory of the first trial
of its chain of predecessors. Missing: a second run in the same process (`C41_second_run_fails`). -/
theorem C41_one_run_partial (fs : String → Option PyFloat) (st : Nat → Settings)
    (calls : List (List Act × DirArg)) (fuel : Nat) (W : World) (cache : DirCache)
    (hW : session fs st fuel {} [] calls = (W, cache)) (hf : W.ids.length ≤ fuel)
    (a : DirArg) (id : String) (ha : Meant W a id) :
    ∃ r, Lineage W id r ∧ (getInitialDirectory W fuel cache a).1 = .ok r.metadata.location := by
  obtain ⟨C, I, hc, _⟩ := session_inv (fs := fs) (st := st) (fuel := fuel) calls (W := {}) (cache := [])
    (Coh.init fs) LinInv.init (by intro id p h; simp [Dict.get] at h) (by rw [hW]; exact hf)
  rw [hW] at C I hc
  obtain ⟨t, t₀, h1, h2, h3⟩ := startOf_meant I ha
  obtain ⟨⟨r, h4, h5⟩, _⟩ := initialDirOf_ok C I hc hf h1 h3
  exact ⟨r, h4, by simp only [getInitialDirectory, h2]; exact h5⟩

/-- Trial "1_1" continues trial "1_0". -/
def continued : Choice :=
  { propose "1_1" with ask := some ⟨"1_1", [("x", .int 3)], some "1_0"⟩ }

/-- The trial a worker is evaluating. -/
def evaluating : PC → Option String
  | .eval id _ => some id
  | _ => none

theorem evaluating_some {pc : PC} {id} (h : evaluating pc = some id) : ∃ h, pc = .eval id h := by
  cases pc <;> simp_all [evaluating]

/-- The hypotheses are met while a trial that continues another one is being evaluated, after an
earlier call. -/
example :
    let s := session noFloat free 2 {} []
      [(go 0 8 (propose "1_0"), .dir "config_1_0"), (go 0 6 continued, .inProgress 0)]
    s.1.ids = ["1_0", "1_1"] ∧ s.2 = [("1_0", "config_1_0")] ∧
    (getInitialDirectory s.1 2 s.2 (.inProgress 0)).1 = .ok "config_1_0" ∧
    Meant s.1 (.inProgress 0) "1_1" :=
  ⟨by decide +kernel, by decide +kernel, by decide +kernel, evaluating_some (by decide +kernel)⟩

/-- **C41 fails**: the cache outlives a run. If a process has asked for the initial directory of a
first trial of one run, it is given the same directory for the trial with the same id of any other
run it works on later. -/
theorem C41_second_run_fails (lookupA lookupB : String → Option Trial) (fuel : Nat)
    (tA tB : Trial) (hA : tA.metadata.previousTrialId = none)
    (hid : tA.metadata.id = tB.metadata.id) (cache : DirCache)
    (hc : Dict.get cache tA.metadata.id = none) :
    (initialDirOf lookupB (fuel + 1) (initialDirOf lookupA (fuel + 1) cache tA).2 tB).1 =
      .ok tA.metadata.location := by
  simp [initialDirOf, hc, walkBack, hA, ← hid, Dict.get_set]

/-- Two runs of one process, each with a trial "0". -/
example :
    let tA := Trial.new "0" [] "/a/configs/config_0" none none (.num 0) "w"
    let tB := Trial.new "0" [] "/b/configs/config_0" none none (.num 0) "w"
    (initialDirOf (fun i => if i = "0" then some tB else none) 1
      (initialDirOf (fun i => if i = "0" then some tA else none) 1 [] tA).2 tB).1 =
        .ok "/a/configs/config_0" := by decide +kernel

/-! ## C71: the arguments of the objective -/

/-- **C71**: in every execution, when the objective is called for a trial, it receives every
hyperparameter of the configuration that was sampled for the trial with its value, the trial's own
directory and the directory of the trial it continues if it has parameters of these names, and
nothing else. -/
theorem C71_arguments_partial (fs : String → Option PyFloat) (st : Nat → Settings) (as : List Act)
    (w : Nat) (id : String) (h : Handle Trial)
    (hpc : ((run fs st {} as).worker w).pc = .eval id h) (sig : List String)
    (hcfg : ∀ p ∈ h.cur.config,
      p.1 ≠ "pipeline_directory" ∧ p.1 ≠ "previous_pipeline_directory") :
    ∃ args t, callArgs sig h.cur = some args ∧ (run fs st {} as).stored id = some t ∧
      (∀ k, k ≠ "pipeline_directory" → k ≠ "previous_pipeline_directory" →
        Dict.get args k = (Dict.get t.config k).map ArgVal.value) ∧
      Dict.get args "pipeline_directory" =
        (if "pipeline_directory" ∈ sig then some (.path ("config_" ++ id)) else none) ∧
      Dict.get args "previous_pipeline_directory" =
        (if "previous_pipeline_directory" ∈ sig then
          (match t.metadata.previousTrialId with
            | none => some .noPath
            | some p => some (.path ("config_" ++ p))) else none) ∧
      (∀ p, t.metadata.previousTrialId = some p → ((run fs st {} as).stored p).isSome) := by
  obtain ⟨C, I⟩ := linInv_run fs st (Coh.init fs) LinInv.init as
  obtain ⟨t, h1, h2⟩ := I.held w id h (by rw [hpc]; rfl)
  obtain ⟨e1, e2, e3, e4, e5⟩ := sampledPart_prev h2
  have hany : h.cur.config.any (fun p => (injected sig h.cur).any (fun q => q.1 = p.1)) = false := by
    rw [List.any_eq_false]
    intro p hp
    obtain ⟨a, b⟩ := hcfg p hp
    simp only [List.any_eq_true, decide_eq_true_eq, not_exists, not_and]
    intro q hq
    have hq := List.mem_of_mem_filter hq
    simp only [List.mem_cons, List.not_mem_nil, or_false] at hq
    rcases hq with rfl | rfl
    · exact fun e => a e.symm
    · exact fun e => b e.symm
  have hval : ∀ (c : List (String × PyVal)) k,
      Dict.get (c.map (fun p => (p.1, ArgVal.value p.2))) k = (Dict.get c k).map ArgVal.value := by
    intro c k
    induction c with
    | nil => rfl
    | cons p c ih =>
      obtain ⟨a, b⟩ := p
      simp only [List.map_cons, Dict.get]
      split
      · rfl
      · exact ih
  have hno : ∀ k, (k = "pipeline_directory" ∨ k = "previous_pipeline_directory") →
      Dict.get h.cur.config k = none := by
    intro k hk
    rw [Dict.get_eq_none_iff]
    intro hm
    obtain ⟨p, hp, rfl⟩ := List.mem_map.mp hm
    obtain ⟨a, b⟩ := hcfg p hp
    rcases hk with hk | hk
    · exact a hk
    · exact b hk
  have hprev : (match h.cur.metadata.previousTrialLocation with
      | some l => ArgVal.path l
      | none => .noPath) =
      (match t.metadata.previousTrialId with
        | none => .noPath
        | some p => .path ("config_" ++ p)) := by
    rw [← e2]
    cases hp : t.metadata.previousTrialId with
    | none => rw [I.noPrev id t h1 hp]
    | some p =>
      obtain ⟨_, _, t', _, _, hst, hl⟩ := I.older id t p h1 hp
      rw [hl, I.loc p t' (stored_eq_some.mp hst).2]
  refine ⟨injected sig h.cur ++ h.cur.config.map (fun p => (p.1, ArgVal.value p.2)), t,
    by simp only [callArgs, hany, Bool.false_eq_true, if_false],
    stored_ofData I h1, ?_, ?_, ?_, ?_⟩
  · intro k k1 k2
    rw [e5, ← hval]
    by_cases s1 : "pipeline_directory" ∈ sig <;> by_cases s2 : "previous_pipeline_directory" ∈ sig <;>
      simp [injected, s1, s2, Dict.get, Ne.symm k1, Ne.symm k2]
  · have := hval h.cur.config "pipeline_directory"
    rw [hno _ (Or.inl rfl)] at this
    rw [← I.loc id t h1, e3]
    by_cases s1 : "pipeline_directory" ∈ sig <;> by_cases s2 : "previous_pipeline_directory" ∈ sig <;>
      simp [injected, s1, s2, Dict.get, this]
  · have := hval h.cur.config "previous_pipeline_directory"
    rw [hno _ (Or.inr rfl)] at this
    have hm : (match t.metadata.previousTrialId with
            | none => some ArgVal.noPath
            | some p => some (.path ("config_" ++ p))) = some (match t.metadata.previousTrialId with
        | none => ArgVal.noPath
        | some p => .path ("config_" ++ p)) := by cases t.metadata.previousTrialId <;> rfl
    rw [hm, ← hprev]
    by_cases s1 : "pipeline_directory" ∈ sig <;> by_cases s2 : "previous_pipeline_directory" ∈ sig <;>
      simp [injected, s1, s2, Dict.get, this] <;> cases h.cur.metadata.previousTrialLocation <;> rfl
  · intro p hp
    obtain ⟨_, _, t', _, _, hst, _⟩ := I.older id t p h1 hp
    simp [hst]

/-- The hypotheses are met: the second trial of a lineage, and an objective with all parameters. -/
example :
    let W := run noFloat free {} (go 0 8 (propose "1_0") ++ go 0 6 continued)
    evaluating (W.worker 0).pc = some "1_1" ∧
    ((W.worker 0).pc.inEval.bind (fun q =>
      callArgs ["x", "pipeline_directory", "previous_pipeline_directory"] q.2.cur)) =
      some [("pipeline_directory", .path "config_1_1"),
            ("previous_pipeline_directory", .path "config_1_0"), ("x", .value (.int 3))] :=
  ⟨by decide +kernel, by decide +kernel⟩

/-- **C71 fails** for a hyperparameter with one of the two reserved names if the objective has a
parameter of that name: the call raises before the objective is entered, for every configuration. -/
theorem C71_reserved_name_fails (sig : List String) (t : Trial) (k : String) (v : PyVal)
    (hk : k = "pipeline_directory" ∨ k = "previous_pipeline_directory") (hs : k ∈ sig)
    (hv : (k, v) ∈ t.config) : callArgs sig t = none := by
  have : t.config.any (fun p => (injected sig t).any (fun q => q.1 = p.1)) = true := by
    rw [List.any_eq_true]
    refine ⟨(k, v), hv, ?_⟩
    rw [List.any_eq_true]
    rcases hk with rfl | rfl
    · exact ⟨("pipeline_directory", .path t.metadata.location), by simp [injected, hs], by simp⟩
    · refine ⟨("previous_pipeline_directory", match t.metadata.previousTrialLocation with
        | some l => .path l
        | none => .noPath), ?_, by simp⟩
      unfold injected
      rw [List.mem_filter]
      exact ⟨by simp; rfl, by simpa using hs⟩
  unfold callArgs
  simp only [this, if_true]

end Neps.Run
