import Verif.Run.Checkpoint
import Verif.Run.LineageProps
import Mathlib.Data.List.TakeWhile
import Mathlib.Data.List.Induction

/-!
# C103: a continued trial loads what the trial it continues saved
-/

namespace Neps.Run

open Neps.Store (Disk Handle)

variable {V : Type}

/-! ## Names -/

theorem splitSuffix_dot {s e : List Char} (hs : s ≠ []) (he : e ≠ []) (hd : '.' ∉ e) :
    splitSuffix (s ++ '.' :: e) = (s, '.' :: e) := by
  have hall : ∀ c ∈ e.reverse, (decide (c ≠ '.')) = true := by
    intro c hc
    rw [List.mem_reverse] at hc
    simp only [ne_eq, decide_eq_true_eq]
    rintro rfl
    exact hd hc
  have hrev : (s ++ '.' :: e).reverse = e.reverse ++ '.' :: s.reverse := by simp
  have h1 : (s ++ '.' :: e).reverse.dropWhile (· ≠ '.') = '.' :: s.reverse := by
    rw [hrev, List.dropWhile_append_of_pos hall]
    simp
  have h2 : (s ++ '.' :: e).reverse.takeWhile (· ≠ '.') = e.reverse := by
    rw [hrev, List.takeWhile_append_of_pos hall]
    simp
  unfold splitSuffix
  rw [h1, h2]
  cases hsr : s.reverse with
  | nil => exact absurd (List.reverse_eq_nil_iff.1 hsr) hs
  | cons a t =>
    cases her : e.reverse with
    | nil => exact absurd (List.reverse_eq_nil_iff.1 her) he
    | cons b u =>
      simp only
      rw [← hsr, ← her, List.reverse_reverse, List.reverse_reverse]

theorem splitSuffix_none {n : List Char}
    (h : ¬ ∃ s e, n = s ++ '.' :: e ∧ s ≠ [] ∧ e ≠ [] ∧ '.' ∉ e) :
    splitSuffix n = (n, []) := by
  unfold splitSuffix
  split
  · next s stem hd =>
    split
    · rfl
    · next e he =>
      exfalso
      apply h
      have hn := List.takeWhile_append_dropWhile (p := fun c : Char => decide (c ≠ '.')) (l := n.reverse)
      have hmem : ∀ c ∈ n.reverse.takeWhile (· ≠ '.'), c ≠ '.' := by
        intro c hc
        simpa using List.mem_takeWhile_imp hc
      refine ⟨(s :: stem).reverse, (n.reverse.takeWhile (· ≠ '.')).reverse, ?_, by simp, ?_, ?_⟩
      · rw [hd] at hn
        have := congrArg List.reverse hn
        simpa using this.symm
      · intro h0
        rw [List.reverse_eq_nil_iff] at h0
        exact he h0
      · intro hc
        rw [List.mem_reverse] at hc
        exact hmem _ hc rfl
  · rfl

theorem stem_iff (n s : List Char) : Stem n s ↔ (splitSuffix n).1 = s := by
  constructor
  · rintro (⟨e, rfl, h1, h2, h3⟩ | ⟨rfl, h⟩)
    · rw [splitSuffix_dot h1 h2 h3]
    · rw [splitSuffix_none h]
  · rintro rfl
    by_cases h : ∃ s e, n = s ++ '.' :: e ∧ s ≠ [] ∧ e ≠ [] ∧ '.' ∉ e
    · obtain ⟨s, e, rfl, h1, h2, h3⟩ := h
      rw [splitSuffix_dot h1 h2 h3]
      exact .inl ⟨e, rfl, h1, h2, h3⟩
    · rw [splitSuffix_none h]
      exact .inr ⟨rfl, h⟩

theorem sameStem_iff (n n' : List Char) : SameStem n n' ↔ checkpointFile n = checkpointFile n' := by
  simp only [SameStem, stem_iff, checkpointFile, List.append_left_inj]
  constructor
  · rintro ⟨s, h1, h2⟩; rw [h1, h2]
  · intro h; exact ⟨_, rfl, h.symm⟩

/-! ## Contents -/

theorem get_foldl_set (vs : List (String × V)) : ∀ (d : List (String × V)) (k : String),
    (∀ v, (k, v) ∉ vs) →
    Dict.get (vs.foldl (fun d p => Dict.set d p.1 p.2) d) k = Dict.get d k := by
  induction vs with
  | nil => intro d k _; rfl
  | cons p vs ih =>
    intro d k h
    rw [List.foldl_cons, ih _ k (fun v hv => h v (by simp [hv])), Dict.get_set, if_neg]
    rintro rfl
    exact h p.2 (by simp)

theorem get_foldl_set_mem (vs : List (String × V)) (hw : Dict.WF vs) : ∀ (d : List (String × V))
    (k : String) (v : V), (k, v) ∈ vs →
    Dict.get (vs.foldl (fun d p => Dict.set d p.1 p.2) d) k = some v := by
  induction vs with
  | nil => intro d k v h; simp at h
  | cons p vs ih =>
    intro d k v h
    simp only [Dict.WF, Dict.keys, List.map_cons, List.nodup_cons] at hw
    rw [List.foldl_cons]
    rcases List.mem_cons.1 h with h | h
    · subst h
      rw [get_foldl_set vs _ k, Dict.get_set, if_pos rfl]
      intro v' hv'
      exact hw.1 (List.mem_map.2 ⟨_, hv', rfl⟩)
    · exact ih hw.2 _ k v h

theorem dict_get_none {vs : List (String × V)} {k : String} (h : Dict.get vs k = none) :
    ∀ v, (k, v) ∉ vs := by
  intro v hv
  rw [Dict.get_eq_none_iff] at h
  exact h (List.mem_map.2 ⟨_, hv, rfl⟩)

/-- The values come from a Python dictionary. -/
def ToSave.WF (a : ToSave V) : Prop := ∀ vs, a.values = some vs → Dict.WF vs

theorem restores (a : ToSave V) (hw : a.WF) (model optimizer : Bool) :
    Restores a model optimizer ⟨a.dict, if model then Dict.get a.dict "model_state_dict" else none,
      if optimizer then Dict.get a.dict "optimizer_state_dict" else none⟩ := by
  have hbase : ∀ k, (∀ vs, a.values = some vs → Dict.get vs k = none) →
      Dict.get a.dict k = if k = "model_state_dict" then a.model
        else if k = "optimizer_state_dict" then a.optimizer else none := by
    intro k hk
    have h1 : Dict.get a.dict k = Dict.get
        (match a.optimizer with
          | some o => Dict.set (match a.model with
            | some m => Dict.set ([] : List (String × V)) "model_state_dict" m
            | none => []) "optimizer_state_dict" o
          | none => match a.model with
            | some m => Dict.set ([] : List (String × V)) "model_state_dict" m
            | none => []) k := by
      unfold ToSave.dict
      cases hv : a.values with
      | none => rfl
      | some vs => exact get_foldl_set vs _ k (dict_get_none (hk vs hv))
    rw [h1]
    by_cases hm : k = "model_state_dict"
    · subst hm
      cases a.model <;> cases a.optimizer <;> simp [Dict.set, Dict.get]
    · by_cases ho : k = "optimizer_state_dict"
      · subst ho
        cases a.model <;> cases a.optimizer <;> simp [Dict.set, Dict.get]
      · rw [if_neg hm, if_neg ho]
        cases a.model <;> cases a.optimizer <;>
          simp [Dict.set, Dict.get, Ne.symm hm, Ne.symm ho]
  constructor
  · intro vs k v hvs hg
    show Dict.get a.dict k = some v
    unfold ToSave.dict
    rw [hvs]
    exact get_foldl_set_mem vs (hw vs hvs) _ k v (Dict.mem_of_get hg)
  · intro k hk h1 h2
    show Dict.get a.dict k = none
    rw [hbase k hk, if_neg h1, if_neg h2]
  · intro hm hk
    show (if model then Dict.get a.dict "model_state_dict" else none) = a.model
    rw [if_pos hm, hbase _ hk, if_pos rfl]
  · intro hm hk
    show (if optimizer then Dict.get a.dict "optimizer_state_dict" else none) = a.optimizer
    rw [if_pos hm, hbase _ hk, if_neg (by decide), if_pos rfl]

/-- Everything that is saved can be read with `weights_only`. -/
def ToSave.Plain (plain : V → Bool) (a : ToSave V) : Prop := a.dict.all (fun p => plain p.2) = true

/-! ## A directory -/

theorem files_last (saves : List (String × ToSave V)) (dir : String) (f : List Char) :
    ∀ fs : Files V,
    (saves.foldl (fun fs s => saveIn fs s.1 s.2) fs) dir f =
      match saves.reverse.find? (fun s => s.1 = dir ∧ checkpointFile s.2.name = f) with
      | some s => some s.2.dict
      | none => fs dir f := by
  induction saves using List.reverseRecOn with
  | nil => intro fs; simp
  | append_singleton l s ih =>
    intro fs
    rw [List.foldl_append, List.foldl_cons, List.foldl_nil, List.reverse_append,
      List.reverse_singleton, List.singleton_append]
    by_cases h : s.1 = dir ∧ checkpointFile s.2.name = f
    · rw [List.find?_cons_of_pos (by simpa using h)]
      simp only [saveIn]
      rw [if_pos ⟨h.1.symm, h.2.symm⟩]
    · rw [List.find?_cons_of_neg (by simpa using h), ← ih fs]
      simp only [saveIn]
      rw [if_neg (fun h' => h ⟨h'.1.symm, h'.2.symm⟩)]

theorem find_reverse_isLast {E : Type} {l : List E} {p : E → Bool} {e : E}
    (h : l.reverse.find? p = some e) : IsLast l (fun x => p x = true) e := by
  rw [List.find?_eq_some_iff_append] at h
  obtain ⟨hp, as, bs, heq, hn⟩ := h
  refine ⟨bs.reverse, as.reverse, ?_, hp, ?_⟩
  · have := congrArg List.reverse heq
    simpa using this
  · intro x hx
    rw [List.mem_reverse] at hx
    have := hn x hx
    simpa using this

/-- **C103, directories**: after any sequence of `save_checkpoint` calls, loading from a directory
gives what was saved last in that directory under that name (names are compared without their
extension), and nothing if nothing was. -/
theorem C103_directory_partial (plain : V → Bool) (saves : List (String × ToSave V))
    (hw : ∀ s ∈ saves, s.2.WF) (hp : ∀ s ∈ saves, s.2.Plain plain) (dir : String)
    (name : List Char) (model optimizer : Bool) :
    (∃ s l, IsLast saves (fun s => s.1 = dir ∧ SameStem s.2.name name) s ∧
      loadFrom plain (saves.foldl (fun fs s => saveIn fs s.1 s.2) fun _ _ => none) dir name
        model optimizer = .ok (some l) ∧ Restores s.2 model optimizer l) ∨
    ((∀ s ∈ saves, ¬ (s.1 = dir ∧ SameStem s.2.name name)) ∧
      loadFrom plain (saves.foldl (fun fs s => saveIn fs s.1 s.2) fun _ _ => none) dir name
        model optimizer = .ok none) := by
  unfold loadFrom
  rw [files_last]
  cases hf : saves.reverse.find?
      (fun s => s.1 = dir ∧ checkpointFile s.2.name = checkpointFile name) with
  | none =>
    right
    refine ⟨?_, rfl⟩
    intro s hs
    rw [List.find?_eq_none] at hf
    have := hf s (by simpa using hs)
    rw [sameStem_iff]
    simpa using this
  | some s =>
    left
    have hs : s ∈ saves := by simpa using List.mem_of_find?_eq_some hf
    have hall : s.2.dict.all (fun p => plain p.2) = true := hp s hs
    refine ⟨s, _, ?_, ?_, restores s.2 (hw s hs) model optimizer⟩
    · have := find_reverse_isLast hf
      simpa [sameStem_iff] using this
    · simp only [hall, if_true]

/-- Two checkpoints in one directory, and one in another. -/
example :
    let saves : List (String × ToSave ℕ) :=
      [("a", { name := "last".toList, model := some 1, values := some [("epoch", 7)] }),
       ("b", { name := "last".toList, model := some 2 }),
       ("a", { name := "best".toList, model := some 3 })]
    (∀ s ∈ saves, s.2.Plain (fun _ => true)) ∧
    loadFrom (fun _ => true) (saves.foldl (fun fs s => saveIn fs s.1 s.2) fun _ _ => none) "a"
      "last".toList true false =
      .ok (some ⟨[("model_state_dict", 1), ("epoch", 7)], some 1, none⟩) :=
  ⟨by simp [ToSave.Plain], by decide +kernel⟩

/-- **C103 fails**: names that differ only behind the last dot are the same checkpoint, so the
checkpoint of one replaces that of the other. -/
theorem C103_extension_fails (plain : V → Bool) (fs : Files V) (dir : String) (m m' : V)
    (h : plain m' = true) :
    loadFrom plain (saveIn (saveIn fs dir { name := "epoch.1".toList, model := some m })
        dir { name := "epoch.2".toList, model := some m' }) dir "epoch.1".toList true false =
      .ok (some ⟨[("model_state_dict", m')], some m', none⟩) := by
  have e : checkpointFile "epoch.1".toList = checkpointFile "epoch.2".toList := by decide +kernel
  have hl : saveIn (saveIn fs dir { name := "epoch.1".toList, model := some m })
      dir { name := "epoch.2".toList, model := some m' } dir (checkpointFile "epoch.1".toList) =
      some [("model_state_dict", m')] := by
    unfold saveIn
    rw [if_pos ⟨rfl, e⟩]
    rfl
  unfold loadFrom
  rw [hl]
  simp only [List.all_cons, List.all_nil, h, Bool.and_self, if_true]
  rfl

/-- **C103 fails**: an object that is not a tensor, number, text or container of these is saved
without complaint, and then the checkpoint cannot be loaded. -/
theorem C103_object_fails (plain : V → Bool) (fs : Files V) (dir : String) (name : List Char)
    (v : V) (h : plain v = false) :
    loadFrom plain (saveIn fs dir { name := name, values := some [("obj", v)] }) dir name false
      false = .error .unpickling := by
  unfold loadFrom
  simp [saveIn, ToSave.dict, Dict.set, h]

/-! ## The trial in progress -/

theorem ckRun_inv (fs : String → Option PyFloat) (st : Nat → Settings)
    (evs : List (List Act × Nat × ToSave V)) : ∀ (W : World) (files : Files V), Coh fs W → LinInv W →
    Coh fs (ckRun fs st W files evs).1 ∧ LinInv (ckRun fs st W files evs).1 ∧
    (ckRun fs st W files evs).2 =
      (ckLog fs st W evs).foldl (fun fs s => saveIn fs ("config_" ++ s.1) s.2) files := by
  induction evs with
  | nil => intro W files C I; exact ⟨C, I, rfl⟩
  | cons ev evs ih =>
    obtain ⟨as, w, a⟩ := ev
    intro W files C I
    obtain ⟨C', I'⟩ := linInv_run fs st C I as
    simp only [ckRun, ckLog]
    obtain ⟨h1, h2, h3⟩ := ih (run fs st W as) (saveCheckpoint (run fs st W as) files w a) C' I'
    refine ⟨h1, h2, ?_⟩
    rw [h3, List.foldl_append]
    congr 1
    unfold saveCheckpoint
    cases hpc : ((run fs st W as).worker w).pc with
    | eval id h =>
      obtain ⟨t, ht, hs⟩ := I'.held w id h (by rw [hpc]; rfl)
      have hl := I'.loc id t ht
      rw [(sampledPart_prev hs).2.2.1] at hl
      simp only [hl, List.foldl_cons, List.foldl_nil]
    | _ => rfl

theorem files_last_map (log : List (String × ToSave V)) (fs : Files V) :
    log.foldl (fun fs s => saveIn fs ("config_" ++ s.1) s.2) fs =
      (log.map fun s => ("config_" ++ s.1, s.2)).foldl (fun fs s => saveIn fs s.1 s.2) fs := by
  rw [List.foldl_map]

theorem config_inj {a b : String} (h : "config_" ++ a = "config_" ++ b) : a = b := by
  have := congrArg String.toList h
  rw [String.toList_append, String.toList_append, List.append_cancel_left_eq] at this
  exact String.toList_injective this

theorem isLast_map {E F : Type} {l : List E} {f : E → F} {p : F → Prop} {x : F}
    (h : IsLast (l.map f) p x) : ∃ e, f e = x ∧ IsLast l (fun e => p (f e)) e := by
  obtain ⟨l₁, l₂, heq, hp, hn⟩ := h
  obtain ⟨k₁, k₂, rfl, h1, h2⟩ := List.map_eq_append_iff.1 heq
  cases k₂ with
  | nil => simp at h2
  | cons e k₂ =>
    simp only [List.map_cons, List.cons.injEq] at h2
    obtain ⟨h3, h4⟩ := h2
    refine ⟨e, h3, k₁, k₂, rfl, by show p (f e); rw [h3]; exact hp, ?_⟩
    intro y hy
    exact hn _ (by rw [← h4]; exact List.mem_map_of_mem hy)

/-- **C103, continuing a trial**: in every execution, with any number of workers, kills and any saves
by the objective in between, `load_checkpoint()` called while a trial is being evaluated gives
nothing if the trial continues no other, and otherwise what the trial it continues saved last with
`save_checkpoint()` under that name, no matter what other trials saved, and nothing if it saved
nothing. -/
theorem C103_continue_partial (fs : String → Option PyFloat) (st : Nat → Settings)
    (plain : V → Bool) (evs : List (List Act × Nat × ToSave V)) (as : List Act)
    (hw : ∀ ev ∈ evs, ev.2.2.WF ∧ ev.2.2.Plain plain)
    (W : World) (files : Files V)
    (hW : ckRun fs st {} (fun _ _ => none) evs = (W, files))
    (w : Nat) (id : String) (h : Handle Trial)
    (hpc : ((run fs st W as).worker w).pc = .eval id h) (name : List Char)
    (model optimizer : Bool) :
    ∃ t, (run fs st W as).stored id = some t ∧
    ((t.metadata.previousTrialId = none ∧
        loadCheckpoint plain (run fs st W as) files w name model optimizer = .ok none) ∨
     ∃ p, t.metadata.previousTrialId = some p ∧
      ((∃ s l, IsLast (ckLog fs st {} evs) (fun s => s.1 = p ∧ SameStem s.2.name name) s ∧
          loadCheckpoint plain (run fs st W as) files w name model optimizer = .ok (some l) ∧
          Restores s.2 model optimizer l) ∨
        ((∀ s ∈ ckLog fs st {} evs, ¬ (s.1 = p ∧ SameStem s.2.name name)) ∧
          loadCheckpoint plain (run fs st W as) files w name model optimizer = .ok none))) := by
  obtain ⟨C, I, hfiles⟩ := ckRun_inv fs st evs {} (fun _ _ => none) (Coh.init fs) LinInv.init
  rw [hW] at C I hfiles
  simp only at C I hfiles
  obtain ⟨C', I'⟩ := linInv_run fs st C I as
  obtain ⟨t, ht, hs⟩ := I'.held w id h (by rw [hpc]; rfl)
  obtain ⟨e1, e2, -⟩ := sampledPart_prev hs
  refine ⟨t, stored_ofData I' ht, ?_⟩
  have hlog : ∀ (evs : List (List Act × Nat × ToSave V)) (W : World),
      (∀ ev ∈ evs, ev.2.2.WF ∧ ev.2.2.Plain plain) →
      ∀ s ∈ ckLog fs st W evs, s.2.WF ∧ s.2.Plain plain := by
    intro evs
    induction evs with
    | nil => intro W _ s hs; simp [ckLog] at hs
    | cons ev evs ih =>
      obtain ⟨as, w, a⟩ := ev
      intro W hev s hs
      simp only [ckLog, List.mem_append] at hs
      rcases hs with hs | hs
      · cases hpc : ((run fs st W as).worker w).pc with
        | eval id h =>
          rw [hpc] at hs
          simp only [List.mem_singleton] at hs
          subst hs
          exact hev (as, w, a) (by simp)
        | _ => rw [hpc] at hs; simp at hs
      · exact ih _ (fun ev h => hev ev (by simp [h])) s hs
  unfold loadCheckpoint
  rw [hpc]
  simp only
  cases hp : t.metadata.previousTrialId with
  | none =>
    left
    have := I'.noPrev id t ht hp
    rw [e2] at this
    rw [this]
    exact ⟨rfl, rfl⟩
  | some p =>
    right
    refine ⟨p, rfl, ?_⟩
    obtain ⟨_, _, t', _, _, hst, hl⟩ := I'.older id t p ht hp
    rw [I'.loc p t' (stored_eq_some.mp hst).2, e2] at hl
    rw [hl, hfiles, files_last_map]
    simp only
    have hmem : ∀ s ∈ (ckLog fs st {} evs).map (fun s => ("config_" ++ s.1, s.2)),
        s.2.WF ∧ s.2.Plain plain := by
      intro s hs
      obtain ⟨s', hs', rfl⟩ := List.mem_map.1 hs
      exact hlog evs {} hw s' hs'
    rcases C103_directory_partial plain _ (fun s hs => (hmem s hs).1) (fun s hs => (hmem s hs).2)
        ("config_" ++ p) name model optimizer with ⟨s, l, g1, g2, g3⟩ | ⟨g1, g2⟩
    · left
      obtain ⟨s', rfl, g4⟩ := isLast_map g1
      refine ⟨s', l, ?_, g2, g3⟩
      obtain ⟨l₁, l₂, heq, ⟨ha, hb⟩, hn⟩ := g4
      refine ⟨l₁, l₂, heq, ⟨config_inj ha, hb⟩, ?_⟩
      rintro x hx ⟨hx1, hx2⟩
      exact hn x hx ⟨by rw [hx1], hx2⟩
    · right
      refine ⟨?_, g2⟩
      rintro s hs ⟨h1, h2⟩
      exact g1 _ (List.mem_map_of_mem hs) ⟨by simp only [h1], h2⟩

/-- The hypotheses are met: trial "1_0" saves, another trial saves under the same name, and "1_1", which
continues "1_0", loads what "1_0" saved. -/
example :
    let a : ToSave ℕ := { name := "checkpoint".toList, model := some 5 }
    let s := ckRun (V := ℕ) noFloat free {} (fun _ _ => none)
      [(go 0 5 (propose "1_0"), 0, a),
       (go 0 3 (propose "1_0") ++ go 0 6 (propose "2_0"), 0, { a with model := some 9 })]
    let W := run noFloat free s.1 (go 0 3 (propose "2_0") ++ go 0 7 continued)
    evaluating (W.worker 0).pc = some "1_1" ∧
    loadCheckpoint (fun _ => true) W s.2 0 "checkpoint".toList true false =
      .ok (some ⟨[("model_state_dict", 5)], some 5, none⟩) :=
  ⟨by decide +kernel, by decide +kernel⟩

/-! ## Lightning -/

/-- **C103, Lightning**: without a previous directory nothing is loaded; otherwise the checkpoint
directory must hold exactly one `.ckpt` file, and that one is loaded. -/
theorem C103_lightning {C : Type} (previous prevOfTrial : Option String)
    (files : List (List Char × C)) :
    (loadLightning previous prevOfTrial files = .ok none ↔ previous = none ∧ prevOfTrial = none) ∧
    ∀ f, loadLightning previous prevOfTrial files = .ok (some f) ↔
      ¬ (previous = none ∧ prevOfTrial = none) ∧
      (∃ b, f.1 = b ++ ".ckpt".toList) ∧
      ∃ l₁ l₂, files = l₁ ++ f :: l₂ ∧ ∀ g ∈ l₁ ++ l₂, ¬ ∃ b, g.1 = b ++ ".ckpt".toList := by
  have hsuf : ∀ n : List Char, ".ckpt".toList.isSuffixOf n = true ↔ ∃ b, n = b ++ ".ckpt".toList := by
    intro n
    rw [List.isSuffixOf_iff_suffix]
    constructor
    · rintro ⟨b, h⟩; exact ⟨b, h.symm⟩
    · rintro ⟨b, h⟩; exact ⟨b, h.symm⟩
  have hone : ∀ f, files.filter (fun f => ".ckpt".toList.isSuffixOf f.1) = [f] ↔
      (∃ b, f.1 = b ++ ".ckpt".toList) ∧
      ∃ l₁ l₂, files = l₁ ++ f :: l₂ ∧ ∀ g ∈ l₁ ++ l₂, ¬ ∃ b, g.1 = b ++ ".ckpt".toList := by
    intro f
    constructor
    · intro h
      obtain ⟨l₁, l₂, heq, h1, h2, h3⟩ := List.filter_eq_cons_iff.1 h
      refine ⟨(hsuf _).1 h2, l₁, l₂, heq, ?_⟩
      intro g hg
      rw [List.mem_append] at hg
      rw [← hsuf]
      rcases hg with hg | hg
      · exact h1 g hg
      · rw [List.filter_eq_nil_iff] at h3
        exact h3 g hg
    · rintro ⟨h1, l₁, l₂, rfl, h2⟩
      rw [List.filter_append, List.filter_cons_of_pos
          (p := fun f : List Char × C => ".ckpt".toList.isSuffixOf f.1) ((hsuf _).2 h1), List.filter_eq_nil_iff.2,
        List.filter_eq_nil_iff.2]
      · rfl
      · intro g hg hs
        exact h2 g (by simp [hg]) ((hsuf _).1 hs)
      · intro g hg hs
        exact h2 g (by simp [hg]) ((hsuf _).1 hs)
  unfold loadLightning
  cases previous with
  | none =>
    cases prevOfTrial with
    | none => simp
    | some q =>
      simp only [reduceCtorEq, and_false, not_false_eq_true, true_and, iff_false]
      refine ⟨?_, ?_⟩
      · split <;> simp
      · intro f
        rw [← hone f]
        split
        · next h => rw [h]; simp only [reduceCtorEq]
        · next g h => rw [h]; simp only [Except.ok.injEq, Option.some.injEq, List.cons.injEq, and_true]
        · next l hl1 hl2 => simp only [reduceCtorEq, false_iff]; exact hl2 f
  | some q =>
    simp only [reduceCtorEq, false_and, not_false_eq_true, true_and, iff_false]
    refine ⟨?_, ?_⟩
    · split <;> simp
    · intro f
      rw [← hone f]
      split
      · next h => rw [h]; simp only [reduceCtorEq]
      · next g h => rw [h]; simp only [Except.ok.injEq, Option.some.injEq, List.cons.injEq, and_true]
      · next l hl1 hl2 => simp only [reduceCtorEq, false_iff]; exact hl2 f

/-- **C103 fails** for what the documentation of `load_lightning_checkpoint` promises, the latest
checkpoint: with two checkpoints it raises. -/
theorem C103_latest_fails {C : Type} (p : String) (c c' : C) :
    loadLightning (some p) none
      [("epoch=1.ckpt".toList, c), ("epoch=2.ckpt".toList, c')] = .error .tooMany := by
  have h1 : ".ckpt".toList.isSuffixOf "epoch=1.ckpt".toList = true := by decide +kernel
  have h2 : ".ckpt".toList.isSuffixOf "epoch=2.ckpt".toList = true := by decide +kernel
  unfold loadLightning
  simp only [List.filter_cons, h1, h2, if_true, List.filter_nil]

example : loadLightning none (some "p") [("a.txt".toList, 1), ("b.ckpt".toList, 2)] =
    .ok (some ("b.ckpt".toList, 2)) := by decide +kernel

end Neps.Run
