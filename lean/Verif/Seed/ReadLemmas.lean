import Verif.Seed.ReadModel
import Verif.Seed.MFProps

/-!
# Reading the trials one after the other: invariants
-/

namespace Neps.Seed

open Neps.Run Neps.MF
open Neps.Store (Disk Handle)

variable {G O E P F : Type}

/-! ## One after the other without anybody else is one step -/

/-- What the loop reads. -/
def loadView (W : World) (id : String) : Option View :=
  match Store.load (W.disk id) with
  | .ok h => some (view h.cur)
  | .error _ => none

theorem reads_all {A : Optimizer G O E} {fs st} {W : SWorld G O E} {w c} {todo : List String}
    {got : List View} {vs : List View} (h : todo.mapM (loadView W.base) = some vs) :
    rrun A fs st ⟨W, some ⟨w, todo, got⟩⟩ (List.replicate todo.length (.read c)) =
      ⟨W, some ⟨w, [], got ++ vs⟩⟩ := by
  induction todo generalizing got vs with
  | nil =>
    simp only [List.mapM_nil] at h
    cases h
    simp [rrun]
  | cons id todo ih =>
    simp only [List.mapM_cons] at h
    cases h1 : loadView W.base id with
    | none => simp [h1] at h
    | some v =>
      cases h2 : todo.mapM (loadView W.base) with
      | none => simp [h1, h2] at h
      | some vs' =>
        simp only [h1, h2, Option.bind_eq_bind, Option.bind_some, Option.pure_def,
          Option.some.injEq] at h
        subst h
        have hst : ract A fs st ⟨W, some ⟨w, id :: todo, got⟩⟩ (.read c) =
            ⟨W, some ⟨w, todo, got ++ [v]⟩⟩ := by
          unfold loadView at h1
          simp only [ract]
          cases hl : Store.load (W.base.disk id) with
          | error e => simp [hl] at h1
          | ok h =>
            simp only [hl, Option.some.injEq] at h1
            subst h1
            rfl
        have := ih (got := got ++ [v]) h2
        simp only [List.length_cons, List.replicate_succ, rrun, List.foldl_cons, hst] at this ⊢
        rw [this]
        simp

theorem idle_reads {A : Optimizer G O E} {fs st} {W : SWorld G O E} {c} (n : Nat) :
    rrun A fs st ⟨W, none⟩ (List.replicate n (.read c)) = ⟨W, none⟩ := by
  induction n with
  | zero => rfl
  | succ n ih => simpa [List.replicate_succ, rrun, ract] using ih

theorem reads_fail {A : Optimizer G O E} {fs st} {W : SWorld G O E} {w c} {todo : List String}
    {got : List View} (h : todo.mapM (loadView W.base) = none) :
    rrun A fs st ⟨W, some ⟨w, todo, got⟩⟩ (List.replicate todo.length (.read c)) =
      ⟨{ W with base := Run.act fs st W.base (.step w { c with ask := none }) }, none⟩ := by
  induction todo generalizing got with
  | nil => simp at h
  | cons id todo ih =>
    simp only [List.length_cons, List.replicate_succ]
    cases h1 : loadView W.base id with
    | none =>
      have hst : ract A fs st ⟨W, some ⟨w, id :: todo, got⟩⟩ (.read c) =
          ⟨{ W with base := Run.act fs st W.base (.step w { c with ask := none }) }, none⟩ := by
        unfold loadView at h1
        simp only [ract]
        cases hl : Store.load (W.base.disk id) with
        | error e => rfl
        | ok h => simp [hl] at h1
      have := idle_reads (A := A) (fs := fs) (st := st) (c := c)
        (W := { W with base := Run.act fs st W.base (.step w { c with ask := none }) }) todo.length
      simpa [rrun, hst] using this
    | some v =>
      have h2 : todo.mapM (loadView W.base) = none := by
        simp only [List.mapM_cons, h1] at h
        cases h2 : todo.mapM (loadView W.base) with
        | none => rfl
        | some vs => simp [h2] at h
      have hst : ract A fs st ⟨W, some ⟨w, id :: todo, got⟩⟩ (.read c) =
          ⟨W, some ⟨w, todo, got ++ [v]⟩⟩ := by
        unfold loadView at h1
        simp only [ract]
        cases hl : Store.load (W.base.disk id) with
        | error e => simp [hl] at h1
        | ok h =>
          simp only [hl, Option.some.injEq] at h1
          subst h1
          rfl
      have := ih (got := got ++ [v]) h2
      simpa [rrun, hst] using this

theorem seen_eq (W : World) (c : Choice) : seen W c = (listing W c).mapM (loadView W) := rfl

theorem sample_of_seen {A : Optimizer G O E} {fs st} {W : SWorld G O E} {w c e d ts}
    (h : seen W.base c = some ts) : sample A fs st W w c e d = sampleFrom A fs st W w c e ts d := by
  have : propose A W w c e = proposeFrom A W w ts e := by
    simp only [propose, proposeFrom, h]
    cases W.seed.read <;> rfl
  unfold sample sampleFrom
  rw [this]
  rfl

theorem sample_of_unseen {A : Optimizer G O E} {fs st} {W : SWorld G O E} {w c e d}
    (h : seen W.base c = none) : sample A fs st W w c e d =
      { W with base := Run.act fs st W.base (.step w { c with ask := none }) } := by
  have : propose A W w c e = none := by simp [propose, h]
  unfold sample
  rw [this]

theorem listing_length (W : World) (c : Choice) : (listing W c).length = W.ids.length :=
  (listing_perm W c).length_eq

/-! ## What was read, and when -/

/-- A sampling of worker `w` is going on. -/
theorem proposeFrom_some {A : Optimizer G O E} {W : SWorld G O E} {w ts e h s o r}
    (hp : proposeFrom A W w ts e = some (h, s, o, r)) :
    ∃ snap, W.seed.read = some snap ∧ h = (e, ts, W.base.budget) ∧
      A.ask (W.opt w) e ts W.base.budget (snap.setGlobal (W.rng w)) = some (s, o, r) := by
  simp only [proposeFrom] at hp
  split at hp
  · next snap h2 =>
    cases ha : A.ask (W.opt w) e ts W.base.budget (snap.setGlobal (W.rng w)) with
    | none => simp [ha] at hp
    | some p =>
      obtain ⟨s', o', r'⟩ := p
      simp only [ha, Option.map_some, Option.some.injEq, Prod.mk.injEq] at hp
      obtain ⟨rfl, rfl, rfl, rfl⟩ := hp
      exact ⟨snap, h2, rfl, ha⟩
  · simp at hp

theorem trans_other {fs st W w W'} (t : Trans fs st W w W') {v : Nat} (h : v ≠ w) :
    W'.worker v = W.worker v := by
  cases t with
  | idle => rfl
  | kill => simp [h]
  | torn => simp [h]
  | step c _ ha s => cases s <;> simp [h]

/-- The locks are held by a worker that is about to sample, and what it has read and what it has
still to read are all the trials. -/
structure Held (fs : String → Option PyFloat) (W : RWorld G O E) : Prop where
  coh : Coh fs W.main.base
  holder : ∀ R, W.reading = some R → samples W.main.base R.worker = true
  all : ∀ R, W.reading = some R → (R.got.map (·.id) ++ R.todo).Perm W.main.base.ids

theorem samples_other {fs st} {W : World} {w v : Nat} {W' : World} (t : Trans fs st W w W') (h : v ≠ w)
    (hs : samples W v = true) : samples W' v = true := by
  simpa only [samples, trans_other t h] using hs

theorem not_waits {W : RWorld G O E} {w : Nat} (h : waits W w = false) :
    samples W.main.base w = false := by
  unfold waits at h
  unfold samples
  cases hp : (W.main.base.worker w).pc <;> simp_all

theorem sampleFrom_base (A : Optimizer G O E) (fs st) (W : SWorld G O E) (w c e ts d) :
    ∃ bs : List Act, (sampleFrom A fs st W w c e ts d).base = run fs st W.base bs := by
  unfold sampleFrom
  split
  · exact ⟨[.step w { c with ask := none }], rfl⟩
  · next h s o r hp =>
    simp only
    split
    · exact ⟨[.step w { c with ask := some s }], rfl⟩
    · cases d with
      | false => exact ⟨[.step w { c with ask := some s }], rfl⟩
      | true => exact ⟨[.step w { c with ask := some s }, .kill w], rfl⟩

theorem coh_run {fs st} {W : World} (C : Coh fs W) (bs : List Act) : Coh fs (run fs st W bs) := by
  induction bs generalizing W with
  | nil => exact C
  | cons b bs ih => exact ih (C.trans (act_trans fs st W b))

theorem load_view {fs} {W : World} (C : Coh fs W) {id h} (hl : Store.load (W.disk id) = .ok h) :
    (view h.cur).id = id := C.names id _ (stored_eq_some.mp (load_stored hl)).2

theorem Held.act {A : Optimizer G O E} {fs st} {W : RWorld G O E} (I : Held fs W) (a : RAct G E) :
    Held fs (ract A fs st W a) := by
  cases a with
  | step w c noise =>
    simp only [ract]
    split
    · exact I
    · next hw =>
      have hw : waits W w = false := by simpa using hw
      have tr := act_trans fs st W.main.base (.step w c)
      have hids := act_other_ids (fs := fs) (st := st) (c := c) (not_waits hw)
      refine ⟨I.coh.trans tr, fun R hR => ?_, fun R hR => ?_⟩
      · refine samples_other tr ?_ (I.holder R hR)
        intro e
        have e : R.worker = w := e
        have := I.holder R hR
        rw [e, not_waits hw] at this
        simp at this
      · simp only [hids]
        exact I.all R hR
  | kill w =>
    have tr := act_trans fs st W.main.base (.kill w)
    refine ⟨I.coh.trans tr, fun R hR => ?_, fun R hR => ?_⟩
    · simp only [ract, Option.filter_eq_some_iff, decide_eq_true_eq] at hR
      exact samples_other tr hR.2 (I.holder R hR.1)
    · simp only [ract, Option.filter_eq_some_iff, decide_eq_true_eq] at hR
      exact I.all R hR.1
  | lock w c =>
    simp only [ract]
    split
    · next h =>
      simp only [Bool.and_eq_true] at h
      refine ⟨I.coh, ?_, ?_⟩
      · rintro R ⟨⟩
        exact h.2
      · rintro R ⟨⟩
        simpa using listing_perm W.main.base c
    · exact I
  | read c =>
    simp only [ract]
    split
    · next w id todo got hR =>
      split
      · next h hl =>
        refine ⟨I.coh, ?_, ?_⟩
        · rintro R ⟨⟩
          exact I.holder ⟨w, id :: todo, got⟩ hR
        · rintro R ⟨⟩
          have := I.all _ hR
          simpa [load_view I.coh hl] using this
      · exact ⟨I.coh.trans (act_trans fs st W.main.base (.step w { c with ask := none })),
          by simp, by simp⟩
    · exact I
  | ask c e how =>
    simp only [ract]
    split
    · next w got hR =>
      cases how with
      | stored =>
        obtain ⟨bs, hb⟩ := sampleFrom_base A fs st W.main w c e got false
        exact ⟨by simp only [hb]; exact coh_run I.coh bs, by simp, by simp⟩
      | beforeSeed =>
        obtain ⟨bs, hb⟩ := sampleFrom_base A fs st W.main w c e got true
        exact ⟨by simp only [hb]; exact coh_run I.coh bs, by simp, by simp⟩
      | creating torn => exact ⟨I.coh.trans (act_trans fs st W.main.base (.killCreating w _ torn)),
          by simp, by simp⟩
    · exact I

theorem held_start (A : Optimizer G O E) (fs : String → Option PyFloat) (r₀ rng) :
    Held fs (rstart A r₀ rng) := ⟨Coh.init fs, by simp [rstart], by simp [rstart]⟩

theorem rrun_snoc (A : Optimizer G O E) (fs st) (W : RWorld G O E) (as : List (RAct G E)) (a : RAct G E) :
    rrun A fs st W (as ++ [a]) = ract A fs st (rrun A fs st W as) a := by
  simp [rrun]

theorem Held.run {A : Optimizer G O E} {fs st} {W : RWorld G O E} (I : Held fs W)
    (as : List (RAct G E)) : Held fs (rrun A fs st W as) := by
  induction as generalizing W with
  | nil => exact I
  | cons a as ih => exact ih (I.act a)

/-- How a reading comes about. -/
theorem reading_act {A : Optimizer G O E} {fs st} {W : RWorld G O E} {a : RAct G E} {R : Reading}
    (h : (ract A fs st W a).reading = some R) :
    R.got = [] ∨ W.reading = some R ∨
    ∃ id t R₀ hd, W.reading = some R₀ ∧ R₀.worker = R.worker ∧ R.got = R₀.got ++ [view t] ∧
      Store.load (W.main.base.disk id) = .ok hd ∧ hd.cur = t := by
  cases a with
  | step w c noise =>
    simp only [ract] at h
    split at h <;> exact Or.inr (Or.inl h)
  | kill w =>
    simp only [ract, Option.filter_eq_some_iff] at h
    exact Or.inr (Or.inl h.1)
  | lock w c =>
    simp only [ract] at h
    split at h
    · cases h
      exact Or.inl rfl
    · exact Or.inr (Or.inl h)
  | read c =>
    simp only [ract] at h
    split at h
    · next w id todo got hR =>
      split at h
      · next hd hl =>
        cases h
        exact Or.inr (Or.inr ⟨id, hd.cur, _, hd, hR, rfl, rfl, hl, rfl⟩)
      · simp at h
    · exact Or.inr (Or.inl h)
  | ask c e how =>
    simp only [ract] at h
    split at h
    · cases how <;> simp at h
    · exact Or.inr (Or.inl h)

/-! ## The history behind what was read -/

theorem forall₂_split {A B : Type} {r : A → B → Prop} {l₁ l₂ : List A} {a : A} {bs : List B}
    (h : List.Forall₂ r (l₁ ++ a :: l₂) bs) : ∃ b₁ b b₂, bs = b₁ ++ b :: b₂ ∧
      List.Forall₂ r l₁ b₁ ∧ r a b ∧ List.Forall₂ r l₂ b₂ := by
  induction l₁ generalizing bs with
  | nil =>
    cases h with
    | cons h1 h2 => exact ⟨[], _, _, rfl, .nil, h1, h2⟩
  | cons x l₁ ih =>
    cases h with
    | cons h1 h2 =>
      obtain ⟨b₁, b, b₂, rfl, h3, h4, h5⟩ := ih h2
      exact ⟨_ :: b₁, b, b₂, rfl, .cons h1 h3, h4, h5⟩

theorem forall₂_join {A B : Type} {r : A → B → Prop} {l₁ l₂ : List A} {b₁ b₂ : List B}
    (h1 : List.Forall₂ r l₁ b₁) (h2 : List.Forall₂ r l₂ b₂) : List.Forall₂ r (l₁ ++ l₂) (b₁ ++ b₂) := by
  induction h1 with
  | nil => exact h2
  | cons h _ ih => exact .cons h ih

theorem forall₂_mem {A B : Type} {r : A → B → Prop} {l : List A} {bs : List B}
    (h : List.Forall₂ r l bs) {b : B} (hb : b ∈ bs) : ∃ a ∈ l, r a b := by
  induction h with
  | nil => simp at hb
  | cons h1 _ ih =>
    rcases List.mem_cons.mp hb with rfl | hb
    · exact ⟨_, by simp, h1⟩
    · obtain ⟨a, ha, hr⟩ := ih hb
      exact ⟨a, by simp [ha], hr⟩

theorem forall₂_mono {A B : Type} {r r' : A → B → Prop} {l : List A} {bs : List B}
    (h : List.Forall₂ r l bs) (hr : ∀ a ∈ l, ∀ b, r a b → r' a b) : List.Forall₂ r' l bs := by
  induction h with
  | nil => exact .nil
  | cons h1 _ ih => exact .cons (hr _ (by simp) _ h1) (ih (fun a ha => hr a (by simp [ha])))

/-- `v` is what a reader knows of the stored trial `t`: a report may be missing if the trial was
read already. -/
def Behind (W : World) (todo : List String) (t : Trial) (v : View) : Prop :=
  v.id = t.metadata.id ∧ v.config = t.config ∧
    (v.result = (view t).result ∨
      (t.metadata.id ∉ todo ∧ t.report.isSome ∧ (AllPending W → v.result = none)))

/-- What was read, together with the present contents of the other trials, is a history. -/
def Mix (K : Codec P F) (A : AskFn P F → Prop) (W : World) (R : Reading) : Prop :=
  ∃ vs Hm, List.Forall₂ (Behind W R.todo) W.trials vs ∧ vs.mapM (recOf K) = some Hm ∧
    Reach A Hm ∧ (AllPending W → ReachOnce A Hm) ∧ ∀ v ∈ R.got, v ∈ vs

theorem recOf_same {K : Codec P F} {v v' : View} (h1 : v'.id = v.id) (h2 : v'.config = v.config)
    (h3 : v'.result = v.result) : recOf K v' = recOf K v := by
  simp only [recOf, h1, h2, h3]

theorem Mix.start {K : Codec P F} {A : AskFn P F → Prop} {W : World} (I : Hist K A W) (w : Nat)
    (todo : List String) : Mix K A W ⟨w, todo, []⟩ := by
  obtain ⟨H, h1, h2, h3⟩ := I
  refine ⟨W.trials.map view, H, ?_, by rw [mapM_map]; exact h1, h2, h3, by simp⟩
  rw [List.forall₂_map_right_iff, List.forall₂_same]
  exact fun t _ => ⟨rfl, rfl, Or.inl rfl⟩

theorem Mix.read {K : Codec P F} {A : AskFn P F → Prop} {fs} {W : World} (C : Coh fs W) {w id todo got}
    {t : Trial} (I : Mix K A W ⟨w, id :: todo, got⟩) (hnd : (got.map (·.id) ++ id :: todo).Nodup)
    (ht : W.stored id = some t) : Mix K A W ⟨w, todo, got ++ [view t]⟩ := by
  obtain ⟨vs, Hm, h1, h2, h3, h4, h5⟩ := I
  have hid : ∀ u ∈ W.trials, u.metadata.id = id → u = t := by
    intro u hu e
    have := stored_of_mem C hu
    rw [e, ht] at this
    exact (Option.some.inj this).symm
  have htid : t.metadata.id = id := C.names id t (stored_eq_some.mp ht).2
  have hkey : ∀ u ∈ W.trials, ∀ v, Behind W (id :: todo) u v → v.id = id → u = t ∧
      v.result = (view t).result := by
    intro u hu v hb e
    have hut := hid u hu (hb.1.symm.trans e)
    subst hut
    refine ⟨rfl, ?_⟩
    rcases hb.2.2 with h | ⟨h, -⟩
    · exact h
    · exact absurd (by rw [htid]; simp) h
  refine ⟨vs.map (fun v => if v.id = id then view t else v), Hm, ?_, ?_, h3, h4, ?_⟩
  · rw [List.forall₂_map_right_iff]
    refine forall₂_mono h1 (fun u hu v hb => ?_)
    by_cases e : v.id = id
    · obtain ⟨rfl, -⟩ := hkey u hu v hb e
      rw [if_pos e]
      exact ⟨rfl, rfl, Or.inl rfl⟩
    · rw [if_neg e]
      refine ⟨hb.1, hb.2.1, hb.2.2.imp (fun h => h) (fun h => ⟨fun hm => h.1 (by simp [hm]), h.2⟩)⟩
  · rw [mapM_map]
    rw [mapM_eq_some] at h2 ⊢
    rw [← h2]
    refine List.map_congr_left (fun v hv => ?_)
    by_cases e : v.id = id
    · obtain ⟨u, hu, hb⟩ := forall₂_mem h1 hv
      obtain ⟨rfl, hr⟩ := hkey u hu v hb e
      simp only [if_pos e]
      exact recOf_same hb.1.symm hb.2.1.symm hr.symm
    · simp [if_neg e]
  · intro v hv
    rcases List.mem_append.mp hv with hv | hv
    · have hne : v.id ≠ id := by
        intro e
        rw [List.nodup_append] at hnd
        exact hnd.2.2 v.id (List.mem_map_of_mem hv) id (by simp) e
      exact List.mem_map.mpr ⟨v, h5 v hv, by simp [hne]⟩
    · simp only [List.mem_singleton] at hv
      subst hv
      have htm : t ∈ W.trials := mem_of_stored C ht
      obtain ⟨l₁, l₂, hl⟩ := List.append_of_mem htm
      rw [hl] at h1
      obtain ⟨b₁, b, b₂, rfl, -, hb, -⟩ := forall₂_split h1
      exact List.mem_map.mpr ⟨b, by simp, by simp [hb.1, htid]⟩

/-- Steps of the other workers. -/
theorem Mix.trans {K : Codec P F} {A : AskFn P F → Prop} {budget : Nat → F} (hA : IsMF budget A)
    {fs st W w W'} (C : Coh fs W) (L : AllPending W → LifeInv W) {R : Reading} (I : Mix K A W R)
    (hnd : (R.got.map (·.id) ++ R.todo).Nodup)
    (tr : Trans fs st W w W') (hids : W'.ids = W.ids) : Mix K A W' R := by
  have hlog : AllPending W' → AllPending W := fun h => h.of_suffix tr.log_suffix
  obtain ⟨vs, Hm, h1, h2, h3, h4, h5⟩ := I
  have hmono : ∀ u v, Behind W R.todo u v → Behind W' R.todo u v := fun u v hb =>
    ⟨hb.1, hb.2.1, hb.2.2.imp (fun h => h) (fun h => ⟨h.1, h.2.1, fun hp => h.2.2 (hlog hp)⟩)⟩
  have hsame : W'.trials = W.trials → Mix K A W' R := fun ht =>
    ⟨vs, Hm, by rw [ht]; exact forall₂_mono h1 (fun u _ v => hmono u v), h2, h3,
      fun h => h4 (hlog h), h5⟩
  cases (C.effect tr).changes C with
  | same ht _ => exact hsame ht
  | added id t a1 a2 a3 a4 a5 a6 a7 =>
    refine hsame ?_
    simp only [World.trials, hids]
    exact List.filterMap_congr (fun x hx => a7 x (fun e => a6 (e ▸ hx)))
  | claimed id l₁ l₂ h now hpc e1 e2 h0 _ _ =>
    rw [e1] at h1
    obtain ⟨b₁, b, b₂, rfl, f1, f2, f3⟩ := forall₂_split h1
    refine ⟨_, Hm, ?_, h2, h3, fun h => h4 (hlog h), h5⟩
    rw [e2]
    exact forall₂_join (forall₂_mono f1 (fun u _ v => hmono u v))
      (.cons (hmono _ _ f2) (forall₂_mono f3 (fun u _ v => hmono u v)))
  | reported id l₁ l₂ h t r hpc hs e1 e2 h0 _ _ =>
    obtain ⟨dv, o, a, b, hr⟩ := C.result w id h t r hpc
    obtain ⟨k1, k2, k3, k4⟩ := evalTrial_ok hr
    obtain ⟨res, hres, hnp⟩ := evalTrial_loss hr
    simp only [Trial.sampledPart, SampledPart.mk.injEq] at k1
    have hid : h.cur.metadata.id = id := C.names id _ (stored_eq_some.mp h0).2
    have hrep : AllPending W → h.cur.report = none := by
      intro hAP
      rcases L hAP id h.cur (stored_eq_some.mp h0).2 with ⟨-, hn⟩ | ⟨r', -, hst, -⟩
      · exact hn
      · rw [hs] at hst
        cases hra : r'.reportedAs <;> simp [hra, ReportedAs.state] at hst
    rw [e1] at h1
    obtain ⟨b₁, v, b₂, rfl, f1, f2, f3⟩ := forall₂_split h1
    have g1 := forall₂_mono f1 (fun u _ v => hmono u v)
    have g3 := forall₂_mono f3 (fun u _ v => hmono u v)
    have hnone : AllPending W → v.result = none := by
      intro hAP
      rcases f2.2.2 with e | ⟨-, e, -⟩
      · rw [e]
        simp [view, hrep hAP]
      · rw [hrep hAP] at e
        simp at e
    by_cases hin : id ∈ R.todo
    · -- not read yet: the reader will see the report
      have hv : v.result = (view h.cur).result := by
        rcases f2.2.2 with e | ⟨e, -⟩
        · exact e
        · exact absurd (hid ▸ hin) e
      rw [mapM_eq_some] at h2
      simp only [List.map_append, List.map_cons] at h2
      obtain ⟨H₁, Hr, hH, a1, a2⟩ := List.map_eq_append_iff.mp h2.symm
      obtain ⟨x, H₂, hx, a3, a4⟩ := List.map_eq_cons_iff.mp a2
      subst hx
      subst hH
      have hx' : recOf K (view { t with report := some r }) = some { x with res := res } :=
        recOf_result a3.symm _ (k1.2.1.trans f2.1.symm) (k1.1.trans f2.2.1.symm) hres
      have hndk := (h3.inv hA).nodup
      refine ⟨b₁ ++ view { t with report := some r } :: b₂,
        MF.report x.key res (H₁ ++ x :: H₂), ?_, ?_, .report _ _ h3 hnp, ?_, ?_⟩
      · rw [e2]
        exact forall₂_join g1 (.cons ⟨rfl, rfl, Or.inl rfl⟩ g3)
      · rw [report_split res hndk, mapM_eq_some]
        simp only [List.map_append, List.map_cons]
        rw [a1, a4, hx']
      · intro hAP
        refine .report _ _ (h4 (hlog hAP)) hnp ?_
        intro y hy hk
        have : y = x := inj_of_nodup_map hndk hy (by simp) hk
        subst this
        have := (recOf_some a3.symm).2.2
        rw [hnone (hlog hAP)] at this
        simp only [resOf, Option.some.injEq] at this
        exact this.symm
      · intro u hu
        have hne : u.id ≠ id := by
          intro e
          rw [List.nodup_append] at hnd
          exact hnd.2.2 u.id (List.mem_map_of_mem hu) id hin e
        have := h5 u hu
        simp only [List.mem_append, List.mem_cons] at this ⊢
        rcases this with h | rfl | h
        · exact Or.inl h
        · exact absurd (f2.1.trans hid) hne
        · exact Or.inr (Or.inr h)
    · -- read already: the reader does not see the report
      refine ⟨_, Hm, ?_, h2, h3, fun h => h4 (hlog h), h5⟩
      rw [e2]
      refine forall₂_join g1 (.cons ⟨f2.1.trans k1.2.1.symm, f2.2.1.trans k1.1.symm, Or.inr
        ⟨?_, rfl, fun h => hnone (hlog h)⟩⟩ g3)
      show t.metadata.id ∉ R.todo
      rw [k1.2.1, hid]
      exact hin

/-! ## Reports that come after the ask -/

/-- `y` is `x` or `x` with a report. -/
def Later (x y : Rec P F) : Prop := y = x ∨ (y.res ≠ .pending ∧ y = { x with res := y.res })

theorem catch_up {A : AskFn P F → Prop} {budget : Nat → F} (hA : IsMF budget A)
    {Hm H : List (Rec P F)} (h : List.Forall₂ Later Hm H) (pre suf : List (Rec P F))
    (hR : Reach A (pre ++ Hm ++ suf)) : Reach A (pre ++ H ++ suf) := by
  induction h generalizing pre with
  | nil => exact hR
  | @cons x y Hm H h1 h2 ih =>
    have key : Reach A (pre ++ y :: Hm ++ suf) := by
      rcases h1 with rfl | ⟨hp, hy⟩
      · exact hR
      · have hnd := (hR.inv hA).nodup
        have := Reach.report x.key y.res hR hp
        simp only [List.append_assoc, List.cons_append] at this hnd ⊢
        rw [report_split _ hnd, ← hy] at this
        exact this
    have := ih (pre ++ [y]) (by simpa using key)
    simpa using this

/-- The same for histories in which every trial is reported once. -/
def LaterOnce (x y : Rec P F) : Prop :=
  y = x ∨ (x.res = .pending ∧ y.res ≠ .pending ∧ y = { x with res := y.res })

theorem ReachOnce.reach {A : AskFn P F → Prop} {H : List (Rec P F)} (h : ReachOnce A H) : Reach A H := by
  induction h with
  | start => exact .start
  | ask _ h2 h3 h4 ih => exact .ask ih h2 h3 h4
  | report k res _ h2 _ ih => exact .report k res ih h2

theorem catch_up_once {A : AskFn P F → Prop} {budget : Nat → F} (hA : IsMF budget A)
    {Hm H : List (Rec P F)} (h : List.Forall₂ LaterOnce Hm H) (pre suf : List (Rec P F))
    (hR : ReachOnce A (pre ++ Hm ++ suf)) : ReachOnce A (pre ++ H ++ suf) := by
  induction h generalizing pre with
  | nil => exact hR
  | @cons x y Hm H h1 h2 ih =>
    have key : ReachOnce A (pre ++ y :: Hm ++ suf) := by
      rcases h1 with rfl | ⟨hx, hp, hy⟩
      · exact hR
      · have hnd := (hR.reach.inv hA).nodup
        have := ReachOnce.report x.key y.res hR hp (by
          intro t ht hk
          have : t = x := inj_of_nodup_map hnd ht (by simp) hk
          rw [this]
          exact hx)
        simp only [List.append_assoc, List.cons_append] at this hnd ⊢
        rw [report_split _ hnd, ← hy] at this
        exact this
    have := ih (pre ++ [y]) (by simpa using key)
    simpa using this

theorem forall₂_recs {K : Codec P F} {W : World} {todo : List String} {ts : List Trial}
    {vs : List View} (h : List.Forall₂ (Behind W todo) ts vs) {H Hm : List (Rec P F)}
    (h1 : ts.mapM (fun t => recOf K (view t)) = some H) (h2 : vs.mapM (recOf K) = some Hm) :
    List.Forall₂ Later Hm H ∧ (AllPending W → List.Forall₂ LaterOnce Hm H) := by
  rw [mapM_eq_some] at h1 h2
  induction h generalizing H Hm with
  | nil =>
    cases H <;> cases Hm <;> simp_all
  | @cons t v ts vs hb _ ih =>
    cases H with
    | nil => simp at h1
    | cons y H =>
      cases Hm with
      | nil => simp at h2
      | cons x Hm =>
        simp only [List.map_cons, List.cons.injEq] at h1 h2
        obtain ⟨i1, i2⟩ := ih h1.2 h2.2
        rcases hb.2.2 with hr | ⟨-, hr, hp⟩
        · have : recOf K (view t) = recOf K v := recOf_same hb.1.symm hb.2.1.symm hr.symm
          rw [h1.1, h2.1] at this
          have hxy : y = x := Option.some.inj this
          exact ⟨.cons (Or.inl hxy) i1, fun h => .cons (Or.inl hxy) (i2 h)⟩
        · obtain ⟨a1, a2, a3⟩ := recOf_some h1.1
          obtain ⟨b1, b2, b3⟩ := recOf_some h2.1
          have hy : y = { x with res := y.res } := by
            rw [show (view t).id = v.id from hb.1.symm, b1] at a1
            rw [show (view t).config = v.config from hb.2.1.symm, b2] at a2
            simp only [Option.some.injEq, Prod.mk.injEq] at a1 a2
            obtain ⟨⟨c1, r1⟩, p1, f1, s1⟩ := y
            obtain ⟨⟨c2, r2⟩, p2, f2, s2⟩ := x
            simp_all
          have hnp : y.res ≠ .pending := by
            intro e
            obtain ⟨r, hr⟩ := Option.isSome_iff_exists.mp hr
            rw [e] at a3
            simp only [view, hr, Option.map_some] at a3
            cases hra : r.reportedAs <;> cases hl : r.loss <;> simp [resOf, hra, hl] at a3
          refine ⟨.cons (Or.inr ⟨hnp, hy⟩) i1, fun h => .cons (Or.inr ⟨?_, hnp, hy⟩) (i2 h)⟩
          rw [hp h] at b3
          simp only [resOf, Option.some.injEq] at b3
          exact b3.symm

end Neps.Seed
