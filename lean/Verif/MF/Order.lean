import Verif.MF.History
import Mathlib.Tactic.SplitIfs

/-! # The order of the mapping of trials does not matter -/

namespace Neps.MF

variable {P F : Type}

theorem Table.ext' {T T' : Table P F} (h1 : T.bound = T'.bound) (h2 : ∀ c, T.row c = T'.row c) :
    T = T' := by
  cases T; cases T'
  simp only at h1
  subst h1
  congr
  funext c
  exact h2 c

/-- The value `get_loss` returns when it does not raise. -/
def perfOf (st : Settings) (t : Rec P F) : Perf :=
  match getLoss st t.res with
  | .ok p => p
  | .error _ => .error

/-- Does `get_loss` raise for this trial? -/
def raises (st : Settings) (t : Rec P F) : Bool :=
  match getLoss st t.res with
  | .ok _ => false
  | .error _ => true

theorem getLoss_error {st : Settings} {r : Res} {e : Err} (h : getLoss st r = .error e) :
    e = .valueError := by
  cases r <;> simp only [getLoss] at h
  · cases h
  · split at h
    · cases h
    · split at h <;> cases h; rfl
  · cases h

theorem load_eq (st : Settings) (ts : List (Rec P F)) : ∀ T : Table P F,
    load st T ts = if ts.any (raises st) then .error .valueError
      else .ok (ts.foldl (fun T t => loadOne T t (perfOf st t)) T) := by
  induction ts with
  | nil => intro T; simp [load]
  | cons t ts ih =>
    intro T
    simp only [load]
    cases hg : getLoss st t.res with
    | error e =>
      have := getLoss_error hg
      simp [raises, hg, this]
    | ok p =>
      have h1 : raises st t = false := by simp [raises, hg]
      have h2 : perfOf st t = p := by simp [perfOf, hg]
      simp only [ih, List.any_cons, h1, Bool.false_or, List.foldl_cons, h2]

theorem loadOne_row (T : Table P F) (t : Rec P F) (p : Perf) (c : Nat) :
    (loadOne T t p).row c =
      if c = t.key.cfg then
        match T.row t.key.cfg with
        | some old => if old.rung < t.key.rung then
            some ⟨t.key.cfg, t.params, t.fid, t.key.rung, p⟩ else some old
        | none => some ⟨t.key.cfg, t.params, t.fid, t.key.rung, p⟩
      else T.row c := by
  simp only [loadOne]
  cases ho : T.row t.key.cfg with
  | none => simp only [set_row]
  | some old =>
    simp only
    split
    · simp only [set_row]
    · split
      · rename_i h; rw [h, ho]
      · rfl

theorem loadOne_bound (T : Table P F) (t : Rec P F) (p : Perf) :
    (loadOne T t p).bound =
        match T.row t.key.cfg with
        | some old => if old.rung < t.key.rung then max T.bound (t.key.cfg + 1) else T.bound
        | none => max T.bound (t.key.cfg + 1) := by
  simp only [loadOne]
  cases ho : T.row t.key.cfg with
  | none => rfl
  | some old => simp only; split <;> rfl

theorem loadOne_comm (T : Table P F) (x y : Rec P F) (px py : Perf)
    (h : x.key ≠ y.key) :
    loadOne (loadOne T x px) y py = loadOne (loadOne T y py) x px := by
  by_cases hc : x.key.cfg = y.key.cfg
  · have hr : x.key.rung ≠ y.key.rung := by
      intro hr; apply h
      cases hx : x.key; cases hy : y.key
      simp_all
    apply Table.ext'
    · simp only [loadOne_bound, loadOne_row, hc, if_true]
      cases T.row y.key.cfg with
      | none =>
        simp only
        split <;> split <;> omega
      | some old =>
        simp only
        by_cases h1 : old.rung < x.key.rung <;> by_cases h2 : old.rung < y.key.rung <;>
          simp only [h1, h2, if_true, if_false] <;> split_ifs <;> simp
    · intro c
      simp only [loadOne_row, hc, if_true]
      split
      · cases T.row y.key.cfg with
        | none =>
          simp only
          split <;> split <;> first | rfl | omega
        | some old =>
          simp only
          by_cases h1 : old.rung < x.key.rung <;> by_cases h2 : old.rung < y.key.rung <;>
            simp only [h1, h2, if_true, if_false] <;> (try split) <;> (try split) <;>
            first | rfl | omega
      · rfl
  · have hc' : ¬ y.key.cfg = x.key.cfg := fun h => hc h.symm
    apply Table.ext'
    · simp only [loadOne_bound, loadOne_row, hc, hc', if_false]
      cases T.row y.key.cfg <;> cases T.row x.key.cfg <;> simp only <;> (try split) <;>
        (try split) <;> omega
    · intro c
      simp only [loadOne_row, hc, hc', if_false]
      by_cases h1 : c = x.key.cfg
      · have : ¬ c = y.key.cfg := by omega
        simp [h1, hc]
      · simp [h1]

theorem pendOne_row (T : Table P F) (t : Rec P F) (c : Nat) :
    (pendOne T t).row c =
      if c = (match T.row t.key.cfg with | none => t.key.cfg | some old => old.cfg) then
        match T.row t.key.cfg with
        | none => some ⟨t.key.cfg, t.params, t.fid, t.key.rung, .val .nan⟩
        | some old => some { old with rung := t.key.rung, perf := .val .nan }
      else T.row c := by
  simp only [pendOne]
  cases ho : T.row t.key.cfg <;> simp only [set_row]

/-- Every row sits under its own index. -/
def Labelled (T : Table P F) : Prop := ∀ c row, T.row c = some row → row.cfg = c

theorem Labelled.pend {T : Table P F} (h : Labelled T) (t : Rec P F) : Labelled (pendOne T t) := by
  intro c row hr
  rw [pendOne_row] at hr
  cases ho : T.row t.key.cfg with
  | none =>
    simp only [ho] at hr
    split at hr
    · rename_i hc; cases hr; exact hc.symm
    · exact h c row hr
  | some old =>
    simp only [ho] at hr
    split at hr
    · rename_i hc; cases hr; exact hc.symm
    · exact h c row hr

theorem Labelled.load {T : Table P F} (h : Labelled T) (t : Rec P F) (p : Perf) :
    Labelled (loadOne T t p) := by
  intro c row hr
  rw [loadOne_row] at hr
  split at hr
  · rename_i hc
    cases ho : T.row t.key.cfg with
    | none => simp only [ho] at hr; cases hr; exact hc.symm
    | some old =>
      simp only [ho] at hr
      split at hr
      · cases hr; exact hc.symm
      · cases hr; rw [h _ _ ho, hc]
  · exact h c row hr

theorem pendOne_comm {T : Table P F} (hL : Labelled T) {x y : Rec P F}
    (h : x.key.cfg ≠ y.key.cfg) :
    pendOne (pendOne T x) y = pendOne (pendOne T y) x := by
  have hx : ∀ old, T.row x.key.cfg = some old → old.cfg = x.key.cfg := fun old => hL _ old
  have hy : ∀ old, T.row y.key.cfg = some old → old.cfg = y.key.cfg := fun old => hL _ old
  have hxy : (pendOne T x).row y.key.cfg = T.row y.key.cfg := by
    rw [pendOne_row, if_neg]
    cases ho : T.row x.key.cfg with
    | none => exact fun h' => h h'.symm
    | some old => simp only [hx old ho]; exact fun h' => h h'.symm
  have hyx : (pendOne T y).row x.key.cfg = T.row x.key.cfg := by
    rw [pendOne_row, if_neg]
    cases ho : T.row y.key.cfg with
    | none => exact h
    | some old => simp only [hy old ho]; exact h
  apply Table.ext'
  · have hbx : ∀ T : Table P F, Labelled T → ∀ t : Rec P F,
        (pendOne T t).bound = max T.bound (t.key.cfg + 1) := by
      intro T hT t
      simp only [pendOne]
      cases ho : T.row t.key.cfg with
      | none => rfl
      | some old => simp only [set_bound, hT _ _ ho]
    rw [hbx _ (hL.pend x), hbx _ hL, hbx _ (hL.pend y), hbx _ hL]
    omega
  · intro c
    rw [pendOne_row (pendOne T x), pendOne_row (pendOne T y), hxy, hyx, pendOne_row T x,
      pendOne_row T y]
    cases ho : T.row x.key.cfg <;> cases ho' : T.row y.key.cfg <;> simp only
    · by_cases h1 : c = x.key.cfg <;> simp [h1, h]
    · rw [hy _ ho']; by_cases h1 : c = x.key.cfg <;> simp [h1, h]
    · rw [hx _ ho]; by_cases h1 : c = x.key.cfg <;> simp [h1, h]
    · rw [hx _ ho, hy _ ho']; by_cases h1 : c = x.key.cfg <;> simp [h1, h]

theorem foldl_pend_perm {l₁ l₂ : List (Rec P F)} (hp : l₁.Perm l₂) :
    (∀ x ∈ l₁, ∀ y ∈ l₁, x.key.cfg = y.key.cfg → x = y) → ∀ T : Table P F, Labelled T →
      l₁.foldl pendOne T = l₂.foldl pendOne T := by
  induction hp with
  | nil => intro _ T _; rfl
  | cons x _ ih =>
    intro h T hT
    exact ih (fun a ha b hb => h a (by simp [ha]) b (by simp [hb])) _ (hT.pend x)
  | swap x y l =>
    intro h T hT
    simp only [List.foldl_cons]
    by_cases he : y = x
    · rw [he]
    · rw [pendOne_comm hT]
      intro hc
      exact he (h y (by simp) x (by simp) hc)
  | trans h1 h2 ih1 ih2 =>
    intro h T hT
    rw [ih1 h T hT]
    exact ih2 (fun a ha b hb => h a (h1.mem_iff.2 ha) b (h1.mem_iff.2 hb)) T hT

theorem foldl_load_labelled (st : Settings) (ts : List (Rec P F)) : ∀ T : Table P F, Labelled T →
    Labelled (ts.foldl (fun T t => loadOne T t (perfOf st t)) T) := by
  induction ts with
  | nil => intro T h; exact h
  | cons t ts ih => intro T h; exact ih _ (h.load t _)

theorem observe_perm (st : Settings) {H H' : List (Rec P F)} (hp : H'.Perm H)
    (hnodup : (H.map (·.key)).Nodup)
    (hpend : ∀ t ∈ H, ∀ t' ∈ H, t.res = .pending → t'.res = .pending →
      t.key.cfg = t'.key.cfg → t = t') :
    observe st H' = observe st H := by
  simp only [observe, load_eq]
  have hf1 : (H'.filter (!·.isPending)).Perm (H.filter (!·.isPending)) := hp.filter _
  have hf2 : (H'.filter (·.isPending)).Perm (H.filter (·.isPending)) := hp.filter _
  have hany : (H'.filter (!·.isPending)).any (raises st) = (H.filter (!·.isPending)).any (raises st) := by
    rw [Bool.eq_iff_iff, List.any_eq_true, List.any_eq_true]
    constructor
    · rintro ⟨x, hx, hr⟩; exact ⟨x, hf1.mem_iff.1 hx, hr⟩
    · rintro ⟨x, hx, hr⟩; exact ⟨x, hf1.mem_iff.2 hx, hr⟩
  have hfold : (H'.filter (!·.isPending)).foldl (fun T t => loadOne T t (perfOf st t))
        (Table.empty : Table P F)
      = (H.filter (!·.isPending)).foldl (fun T t => loadOne T t (perfOf st t)) Table.empty := by
    apply List.Perm.foldl_eq' hf1
    intro x hx y hy z
    by_cases hk : x.key = y.key
    · have : x = y := inj_of_nodup_map hnodup (hp.mem_iff.1 (List.mem_filter.1 hx).1)
        (hp.mem_iff.1 (List.mem_filter.1 hy).1) hk
      rw [this]
    · exact loadOne_comm z x y _ _ hk
  rw [hany]
  by_cases hr : (H.filter (!·.isPending)).any (raises st) = true
  · simp only [hr, if_true]
  · simp only [hr, if_false, Bool.false_eq_true, Except.ok.injEq]
    rw [hfold]
    apply foldl_pend_perm hf2
    · intro x hx y hy hc
      have hx' := List.mem_filter.1 hx
      have hy' := List.mem_filter.1 hy
      exact hpend x (hp.mem_iff.1 hx'.1) y (hp.mem_iff.1 hy'.1)
        (by simpa [Rec.isPending] using hx'.2) (by simpa [Rec.isPending] using hy'.2) hc
    · apply foldl_load_labelled
      intro c row hr
      simp [Table.empty] at hr

/-- In a history at most one trial of a configuration is pending. -/
theorem Inv.one_pending {budget : Nat → F} {H : List (Rec P F)} (hI : Inv budget H) :
    ∀ t ∈ H, ∀ t' ∈ H, t.res = .pending → t'.res = .pending → t.key.cfg = t'.key.cfg → t = t' := by
  intro t ht t' ht' hr hr' hc
  rcases Nat.lt_trichotomy t.key.rung t'.key.rung with h | h | h
  · exact absurd hr (hI.done t ht t' ht' hc h)
  · apply inj_of_nodup_map hI.nodup ht ht'
    cases hx : t.key; cases hy : t'.key
    simp_all
  · exact absurd hr' (hI.done t' ht' t ht hc.symm h)

/-- The four optimizers depend on the trials only through the table. -/
theorem ask_congr {budget : Nat → F} {A : AskFn P F → Prop} (hA : IsMF budget A) {f : AskFn P F}
    (hf : A f) {H H' : List (Rec P F)} (h : ∀ st, observe st H' = observe st H) (new : P) :
    f H' new = f H new := by
  cases hA with
  | sh st b hb => obtain ⟨sort, _, rfl⟩ := hf; simp only [shAsk, h]
  | hb st bs nb hbud hnb => obtain ⟨sort, _, rfl⟩ := hf; simp only [hbAsk, h]
  | asha st b hb => obtain ⟨sort, _, rfl⟩ := hf; simp only [ashaAsk, h]
  | ahb st bs nb hbud hnb => obtain ⟨sort, cur, _, hc, rfl⟩ := hf; simp only [ahbAsk, h]

end Neps.MF
