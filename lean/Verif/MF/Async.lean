import Verif.MF.Select
import Mathlib.Data.List.Nodup

/-! # Promotions of the asynchronous optimizers -/

namespace Neps.MF

variable {P F : Type}

section

variable {st : Settings} {budget : Nat → F} {H H' : List (Rec P F)} {T : Table P F}

theorem mem_dropna {rows : List (Row P F)} {x : Row P F} :
    x ∈ dropna rows ↔ x ∈ rows ∧ x.perf.isNan = false := by
  simp [dropna, List.mem_filter]

theorem mem_dropDefault {rows : List (Row P F)} {x : Row P F} :
    x ∈ dropDefault st rows ↔ x ∈ rows ∧ st.offset ≤ x.cfg := by
  simp only [dropDefault, Settings.offset]
  cases h1 : st.defaultFirst <;> cases h2 : st.defaultAtTarget <;>
    simp [List.mem_filter, Nat.one_le_iff_ne_zero]

theorem getLoss_of_lossOf {t : Rec P F} {y : PyFloat} (h : lossOf st t = some y) :
    getLoss st t.res = .ok (.val y) := by
  simp only [lossOf] at h
  cases hr : t.res with
  | pending => simp [hr] at h
  | loss z => simp only [hr, Option.some.injEq] at h; simp [getLoss, h]
  | error =>
    simp only [hr] at h
    split at h
    · cases h
    · rename_i hi
      simp [getLoss, hi, h]

theorem getLoss_error_res {t : Rec P F} (h : getLoss st t.res = .ok .error) :
    t.res = .error ∧ st.ignoreErrors = true := by
  cases hr : t.res with
  | pending => simp [hr, getLoss] at h
  | loss z => simp [hr, getLoss] at h
  | error =>
    simp only [hr, getLoss] at h
    split at h
    · rename_i hi; exact ⟨rfl, hi⟩
    · cases ho : st.lossOnError <;> simp [ho] at h

theorem candidate_row (hI : Inv budget H) (hp : H'.Perm H) (ho : observe st H' = .ok T) {r : Nat}
    {t : Rec P F} (ht : t ∈ H) (hc : Candidate st H r t) :
    ∃ x ∈ atRung (dropDefault st (dropna T.rows)) r, x.cfg = t.key.cfg ∧
      getLoss st t.res = .ok x.perf := by
  obtain ⟨hr, htop, hpend, hnan, hoff⟩ := hc
  cases hrow : T.row t.key.cfg with
  | none => exact absurd rfl ((observe_none hI hp ho _).1 hrow t ht)
  | some x =>
    obtain ⟨hcfg, t', ht', hk', _, hl, hm⟩ := observe_row hI hp ho hrow
    have hxr : x.rung = r := by
      have h1 := hm t ht rfl
      have h2 := htop t' ht' (by rw [hk'])
      rw [hk'] at h2
      simp only at h2
      omega
    have htt : t' = t := by
      apply inj_of_nodup_map hI.nodup ht' ht
      rw [hk', hxr, ← hr]
    subst htt
    refine ⟨x, ?_, hcfg, hl⟩
    rw [mem_atRung, mem_dropDefault, mem_dropna]
    refine ⟨⟨⟨(mem_rows hI hp ho x).2 (by rw [hcfg]; exact hrow), ?_⟩, by rw [hcfg]; exact hoff⟩, hxr⟩
    cases hpf : x.perf with
    | error => rfl
    | val y =>
      simp only [Perf.isNan]
      rw [hpf] at hl
      cases y with
      | nan =>
        exfalso
        apply hnan
        simp only [lossOf]
        cases hres : t'.res with
        | pending => exact absurd hres hpend
        | loss z => rw [hres] at hl; simp only [getLoss, Except.ok.injEq, Perf.val.injEq] at hl; simp [hl]
        | error =>
          rw [hres] at hl
          simp only [getLoss] at hl
          split at hl
          · simp at hl
          · rename_i hi
            cases hlo : st.lossOnError with
            | none => simp [hlo] at hl
            | some z => simp only [hlo, Except.ok.injEq, Perf.val.injEq] at hl; simp [hi, hl]
      | _ => rfl

theorem row_candidate (hI : Inv budget H) (hp : H'.Perm H) (ho : observe st H' = .ok T) {r : Nat}
    {x : Row P F} (hx : x ∈ atRung (dropDefault st (dropna T.rows)) r) :
    ∃ t ∈ H, Candidate st H r t ∧ t.key = ⟨x.cfg, r⟩ ∧ getLoss st t.res = .ok x.perf := by
  rw [mem_atRung, mem_dropDefault, mem_dropna] at hx
  obtain ⟨⟨⟨hxT, hnan⟩, hoff⟩, hr⟩ := hx
  obtain ⟨_, t, ht, hk, _, hl, hm⟩ := observe_row hI hp ho ((mem_rows hI hp ho x).1 hxT)
  refine ⟨t, ht, ⟨by rw [hk, hr], ?_, ?_, ?_, by rw [hk]; exact hoff⟩, by rw [hk, hr], hl⟩
  · intro t' ht' hc
    rw [hk] at hc
    rw [← hr]
    exact hm t' ht' hc
  · intro hres
    rw [hres] at hl
    simp only [getLoss, Except.ok.injEq] at hl
    rw [← hl] at hnan
    simp [Perf.isNan, PyFloat.isNan] at hnan
  · intro hlo
    rw [getLoss_of_lossOf hlo] at hl
    simp only [Except.ok.injEq] at hl
    rw [← hl] at hnan
    simp [Perf.isNan, PyFloat.isNan] at hnan

theorem rows_cfg_nodup (hI : Inv budget H) (hp : H'.Perm H) (ho : observe st H' = .ok T) :
    (T.rows.map (·.cfg)).Nodup := by
  have := slice_cfgs (rows_label hI hp ho) 0 T.rows.length
  simp only [List.drop_zero, List.take_length] at this
  rw [this]
  exact List.nodup_range'

/-- As many rows as competing trials. -/
theorem candidates_length (hI : Inv budget H) (hp : H'.Perm H) (ho : observe st H' = .ok T) (r : Nat) :
    (atRung (dropDefault st (dropna T.rows)) r).length
      = (H.filter (fun t => decide (Candidate st H r t))).length := by
  have h1 : ((atRung (dropDefault st (dropna T.rows)) r).map (·.cfg)).Nodup := by
    refine List.Nodup.sublist (List.Sublist.map _ ?_) (rows_cfg_nodup hI hp ho)
    refine List.Sublist.trans List.filter_sublist ?_
    simp only [dropDefault]
    split
    · exact List.Sublist.trans List.filter_sublist List.filter_sublist
    · exact List.filter_sublist
  have h2 : ((H.filter (fun t => decide (Candidate st H r t))).map (·.key.cfg)).Nodup := by
    have hk : ((H.filter (fun t => decide (Candidate st H r t))).map (·.key)).Nodup :=
      List.Nodup.sublist (List.Sublist.map _ List.filter_sublist) hI.nodup
    have : (H.filter (fun t => decide (Candidate st H r t))).map (·.key.cfg)
        = ((H.filter (fun t => decide (Candidate st H r t))).map (·.key)).map (·.cfg) := by
      simp [List.map_map]
    rw [this]
    apply List.Nodup.map_on _ hk
    intro a ha b hb hab
    obtain ⟨t, ht, rfl⟩ := List.mem_map.1 ha
    obtain ⟨t', ht', rfl⟩ := List.mem_map.1 hb
    have e1 := (of_decide_eq_true (List.mem_filter.1 ht).2).1
    have e2 := (of_decide_eq_true (List.mem_filter.1 ht').2).1
    cases hk1 : t.key; cases hk2 : t'.key
    simp_all
  have hperm : ((atRung (dropDefault st (dropna T.rows)) r).map (·.cfg)).Perm
      ((H.filter (fun t => decide (Candidate st H r t))).map (·.key.cfg)) := by
    rw [List.perm_ext_iff_of_nodup h1 h2]
    intro c
    simp only [List.mem_map, List.mem_filter, decide_eq_true_eq]
    constructor
    · rintro ⟨x, hx, rfl⟩
      obtain ⟨t, ht, hc, hk, _⟩ := row_candidate hI hp ho hx
      exact ⟨t, ⟨ht, hc⟩, by rw [hk]⟩
    · rintro ⟨t, ⟨ht, hc⟩, rfl⟩
      obtain ⟨x, hx, hxc, _⟩ := candidate_row hI hp ho ht hc
      exact ⟨x, hx, hxc⟩
  have := hperm.length_eq
  simpa using this

/-- Promotions of the asynchronous policy. -/
theorem async_promotion {b : Bracket F} {firstR : Nat} {sort : Argsort} {ps : List (Nat × List Nat)}
    {new : P} {p : Proposal P F} {k0 : Key} (hI : Inv budget H) (hp : H'.Perm H)
    (ho : observe st H' = .ok T) (hsort : Sorts sort)
    (hs : asyncPromotions b firstR sort (dropDefault st (dropna T.rows)) = .ok ps)
    (hget : getConfigAndIds st b T ps new = .ok p) (hprev : p.prev = some k0) :
    k0.rung < b.maxR ∧ b.eta ≤ (H.filter (fun t => decide (Candidate st H k0.rung t))).length ∧
    ∃ t0 ∈ H, t0.key = k0 ∧ Candidate st H k0.rung t0 ∧
      ((∃ x0, lossOf st t0 = some x0 ∧ ∀ t ∈ H, Candidate st H k0.rung t →
          ∃ x, lossOf st t = some x ∧ PyFloat.le x0 x = true) ∨
        (st.ignoreErrors = true ∧ ∀ t ∈ H, Candidate st H k0.rung t → t.res = .error)) := by
  obtain ⟨c, row, hh, hrow, hcfg, h1, h2, hkey⟩ := getConfig_some hget hprev
  obtain ⟨l, hlm, hhead⟩ := promosAt_head_mem hh
  obtain ⟨_, hl, herr⟩ := asyncGo_mem _ hs hlm
  rw [hl, pyTake_nat] at hhead
  obtain ⟨x0, hx0, hc0, hpos, hbest⟩ := head_pick_sorted hsort hhead
  have hx0T : x0 ∈ T.rows := by
    have := hx0
    rw [mem_atRung, mem_dropDefault, mem_dropna] at this
    exact this.1.1.1
  have hrow0 : row = x0 := by
    rw [rows_get hI hp ho, ← hc0, (mem_rows hI hp ho x0).1 hx0T] at hrow
    exact (Option.some.inj hrow).symm
  subst hrow0
  obtain ⟨t0, ht0, hcand, hk0, hl0⟩ := row_candidate hI hp ho hx0
  have hnn : ∀ y ∈ atRung (dropDefault st (dropna T.rows)) k0.rung, y.perf ≠ .error → y.float ≠ .nan := by
    intro y hy hye he
    rw [mem_atRung, mem_dropDefault, mem_dropna] at hy
    have := hy.1.1.2
    rw [float_val hye, he] at this
    simp [Perf.isNan, PyFloat.isNan] at this
  refine ⟨h2, ?_, t0, ht0, by rw [hk0, ← hcfg], hcand, ?_⟩
  · rw [← candidates_length hI hp ho]
    rcases Nat.eq_zero_or_pos b.eta with he | he
    · omega
    · exact ((Nat.div_pos_iff).1 hpos).2
  · rcases herr with herr | herr
    · left
      have hf0 := float_val (herr row hx0)
      rw [hf0] at hl0
      refine ⟨row.float, (lossOf_of_val hl0 (hnn row hx0 (herr row hx0))).1, ?_⟩
      intro t ht hc
      obtain ⟨x, hx, hxc, hlx⟩ := candidate_row hI hp ho ht hc
      rw [float_val (herr x hx)] at hlx
      have hxn := hnn x hx (herr x hx)
      refine ⟨x.float, (lossOf_of_val hlx hxn).1, ?_⟩
      rcases hbest x hx with he | he
      · rw [← he]; exact le_refl_of_ne_nan (hnn row hx0 (herr row hx0))
      · rcases he with he | he
        · exact absurd he hxn
        · exact he.2
    · right
      have hl0' := hl0
      rw [herr row hx0] at hl0'
      refine ⟨(getLoss_error_res hl0').2, ?_⟩
      intro t ht hc
      obtain ⟨x, hx, hxc, hlx⟩ := candidate_row hI hp ho ht hc
      rw [herr x hx] at hlx
      exact (getLoss_error_res hlx).1

end

end Neps.MF
