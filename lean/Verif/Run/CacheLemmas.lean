import Verif.Run.CacheSpec
import Verif.Run.Lemmas

/-!
# Workers with caches do what workers without caches do

A simulation between `Verif.Run.CacheModel` and `Verif.Run.Model`.
-/

namespace Neps.Run

open Neps.Store (Disk Handle)

/-- The trial that the worker has changed in memory and not written yet. -/
def CPC.changed : CPC → Option String
  | .report id _ => some id
  | _ => none

/-- What a worker keeps is right if its version is the stored one. -/
def KeptOk (disk : String → Disk Trial) (k : Cache) (ex : Option String) : Prop :=
  ∀ id h, k id = some h → h.ver < (disk id).next ∧
    ((disk id).ver = some h.ver → ex ≠ some id → (disk id).data = some h.cur)

/-- Stored versions have been used. -/
def VerLt (disk : String → Disk Trial) : Prop :=
  ∀ id v, (disk id).ver = some v → v < (disk id).next

theorem loaded_iff {d : Disk Trial} {h : Handle Trial} :
    Store.load d = .ok h ↔ d.ver = some h.ver ∧ d.data = some h.cur := by
  unfold Store.load Store.read
  rcases hv : d.ver with _ | v <;> rcases hd : d.data with _ | x <;> simp
  constructor
  · rintro rfl; simp
  · rintro ⟨rfl, rfl⟩; rfl

theorem Cache.set_self (k : Cache) (id h) : (k.set id h) id = some h := by simp [Cache.set]

theorem Cache.set_ne (k : Cache) {id id'} (h) (hne : id' ≠ id) : (k.set id h) id' = k id' := by
  simp [Cache.set, hne]

theorem Cache.set_isSome (k : Cache) (id h id') (hs : (k id').isSome) :
    ((k.set id h) id').isSome := by
  unfold Cache.set
  split <;> simp [hs]

theorem KeptOk.set {disk k ex id h} (hk : KeptOk disk k ex) (hv : h.ver < (disk id).next)
    (hd : (disk id).ver = some h.ver → ex ≠ some id → (disk id).data = some h.cur) :
    KeptOk disk (k.set id h) ex := by
  intro id' h' he
  by_cases hne : id' = id
  · subst hne
    rw [Cache.set_self] at he
    cases he
    exact ⟨hv, hd⟩
  · rw [Cache.set_ne _ _ hne] at he
    exact hk _ _ he

theorem KeptOk.load {disk k ex id h} (hk : KeptOk disk k ex) (hl : VerLt disk)
    (h' : Store.load (disk id) = .ok h) : KeptOk disk (k.set id h) ex := by
  obtain ⟨h1, h2⟩ := loaded_iff.1 h'
  exact hk.set (hl _ _ h1) fun _ _ => h2

theorem KeptOk.weaken {disk k ex} (hk : KeptOk disk k none) : KeptOk disk k ex :=
  fun id h he => ⟨(hk id h he).1, fun hv _ => (hk id h he).2 hv (by simp)⟩

/-- Syncing a kept trial gives what is stored. -/
theorem sync_ok {disk : String → Disk Trial} {k : Cache} {ex id}
    (hk : KeptOk disk k ex) (hne : ex ≠ some id) (hs : (k id).isSome) {h}
    (hl : Store.load (disk id) = .ok h) : k.sync id (disk id) = .ok (k.set id h, h.cur) := by
  obtain ⟨g, hg⟩ := Option.isSome_iff_exists.1 hs
  obtain ⟨h1, h2⟩ := loaded_iff.1 hl
  unfold Cache.sync Store.sync
  simp only [hg, h1]
  by_cases hv : g.ver = h.ver
  · rw [if_pos hv]
    have := (hk id g hg).2 (by rw [h1, hv]) hne
    rw [h2] at this
    have : g = h := by
      obtain ⟨gc, gv⟩ := g; obtain ⟨hc, hv'⟩ := h
      simp_all
    simp [this]
  · rw [if_neg hv]
    simp [Store.read, h2]

theorem sync_err {disk : String → Disk Trial} {k : Cache} {ex id}
    (hk : KeptOk disk k ex) (hne : ex ≠ some id) {e}
    (hl : Store.load (disk id) = .error e) : ∃ e', k.sync id (disk id) = .error e' := by
  unfold Cache.sync Store.sync
  rcases hg : k id with _ | g
  · exact ⟨_, rfl⟩
  · simp only
    rcases hv : (disk id).ver with _ | v
    · exact ⟨_, rfl⟩
    · simp only
      rcases hd : (disk id).data with _ | t
      · by_cases hgv : g.ver = v
        · have := (hk id g hg).2 (by rw [hv, hgv]) hne
          simp [hd] at this
        · simp [Store.read, hd, hgv]
      · simp [Store.load, Store.read, hv, hd] at hl

theorem open_ok {disk : String → Disk Trial} {k k' : Cache} {ex id}
    (hk : KeptOk disk k ex) (hl : VerLt disk) (ho : k.open id (disk id) = .ok k') :
    KeptOk disk k' ex ∧ (k' id).isSome ∧ (∀ id', (k id').isSome → (k' id').isSome) := by
  unfold Cache.open at ho
  rcases hg : k id with _ | g
  · simp only [hg] at ho
    rcases hd : Store.load (disk id) with e | h
    · simp [hd] at ho
    · simp only [hd, Except.ok.injEq] at ho
      subst ho
      exact ⟨hk.load hl hd, by simp [Cache.set], fun id' hs => Cache.set_isSome _ _ _ _ hs⟩
  · simp only [hg, Except.ok.injEq] at ho
    subst ho
    exact ⟨hk, by simp [hg], fun _ h => h⟩

theorem open_err {disk : String → Disk Trial} {k : Cache} {id e}
    (ho : k.open id (disk id) = .error e) : ∃ e', Store.load (disk id) = .error e' := by
  unfold Cache.open at ho
  rcases hg : k id with _ | g
  · simp only [hg] at ho
    rcases hd : Store.load (disk id) with e | h
    · exact ⟨_, rfl⟩
    · simp [hd] at ho
  · simp [hg] at ho

theorem openAll_ok {disk : String → Disk Trial} {ex} (hl : VerLt disk) :
    ∀ {ids : List String} {k k' : Cache}, KeptOk disk k ex → openAll disk ids k = .ok k' →
      KeptOk disk k' ex ∧ (∀ id ∈ ids, (k' id).isSome) ∧
      (∀ id', (k id').isSome → (k' id').isSome)
  | [], k, k', hk, h => by
    simp only [openAll, Except.ok.injEq] at h
    subst h
    exact ⟨hk, by simp, fun _ h => h⟩
  | id :: ids, k, k', hk, h => by
    simp only [openAll] at h
    rcases ho : k.open id (disk id) with e | k₁
    · simp [ho] at h
    · simp only [ho] at h
      obtain ⟨h1, h2, h3⟩ := open_ok hk hl ho
      obtain ⟨h4, h5, h6⟩ := openAll_ok hl h1 h
      refine ⟨h4, ?_, fun id' hs => h6 _ (h3 _ hs)⟩
      intro id' hm
      rcases List.mem_cons.1 hm with rfl | hm
      · exact h6 _ h2
      · exact h5 _ hm

theorem openAll_err {disk : String → Disk Trial} :
    ∀ {ids : List String} {k : Cache} {e}, openAll disk ids k = .error e →
      ∃ id ∈ ids, ∃ e', Store.load (disk id) = .error e'
  | [], k, e, h => by simp [openAll] at h
  | id :: ids, k, e, h => by
    simp only [openAll] at h
    rcases ho : k.open id (disk id) with e' | k₁
    · obtain ⟨e', h'⟩ := open_err ho
      exact ⟨id, by simp, e', h'⟩
    · simp only [ho] at h
      obtain ⟨id', hm, h'⟩ := openAll_err h
      exact ⟨id', List.mem_cons_of_mem _ hm, h'⟩

theorem syncAll_ok {disk : String → Disk Trial} (hl : VerLt disk) :
    ∀ {ids : List String} {k k' : Cache}, KeptOk disk k none → (∀ id ∈ ids, (k id).isSome) →
      syncAll disk ids k = .ok k' →
      KeptOk disk k' none ∧ (∀ id, id ∉ ids → k' id = k id) ∧
      (∀ id ∈ ids, ∃ h, Store.load (disk id) = .ok h ∧ k' id = some h)
  | [], k, k', hk, _, h => by
    simp only [syncAll, Except.ok.injEq] at h
    subst h
    exact ⟨hk, fun _ _ => rfl, by simp⟩
  | id :: ids, k, k', hk, hs, h => by
    simp only [syncAll] at h
    rcases hd : Store.load (disk id) with e | g
    · obtain ⟨e', he⟩ := sync_err hk (by simp) hd
      simp [he] at h
    · rw [sync_ok hk (by simp) (hs _ (by simp)) hd] at h
      simp only at h
      obtain ⟨h1, h2, h3⟩ := syncAll_ok hl (hk.load hl hd)
        (fun id' hm => Cache.set_isSome _ _ _ _ (hs _ (List.mem_cons_of_mem _ hm))) h
      refine ⟨h1, ?_, ?_⟩
      · intro id' hm
        rw [List.mem_cons, not_or] at hm
        rw [h2 _ hm.2, Cache.set_ne _ _ hm.1]
      · intro id' hm
        by_cases hm' : id' ∈ ids
        · exact h3 _ hm'
        · rcases List.mem_cons.1 hm with rfl | hm
          · exact ⟨g, hd, by rw [h2 _ hm', Cache.set_self]⟩
          · exact absurd hm hm'

theorem syncAll_err {disk : String → Disk Trial} (hl : VerLt disk) :
    ∀ {ids : List String} {k : Cache} {e}, KeptOk disk k none → (∀ id ∈ ids, (k id).isSome) →
      syncAll disk ids k = .error e → ∃ id ∈ ids, ∃ e', Store.load (disk id) = .error e'
  | [], k, e, hk, _, h => by simp [syncAll] at h
  | id :: ids, k, e, hk, hs, h => by
    simp only [syncAll] at h
    rcases hd : Store.load (disk id) with e' | g
    · exact ⟨id, by simp, e', hd⟩
    · rw [sync_ok hk (by simp) (hs _ (by simp)) hd] at h
      simp only at h
      obtain ⟨id', hm, h'⟩ := syncAll_err hl (hk.load hl hd)
        (fun id' hm => Cache.set_isSome _ _ _ _ (hs _ (List.mem_cons_of_mem _ hm))) h
      exact ⟨id', List.mem_cons_of_mem _ hm, h'⟩

/-- The world without caches. -/
def CWorld.abs (C : CWorld) (ws : Nat → Worker) : World :=
  ⟨C.ids, C.disk, C.budget, C.errs, ws, C.log⟩

theorem prepare_none {C : CWorld} {ws k s} (hl : VerLt C.disk) (hk : KeptOk C.disk k none)
    (h : cprepare C k s = none) : prepareSample (C.abs ws) s = none := by
  unfold prepareSample
  split
  · rename_i hall
    have hall' : ∀ id ∈ C.ids, ∃ g, Store.load (C.disk id) = .ok g := by
      intro id hm
      have := List.all_eq_true.1 hall id hm
      simp only [CWorld.abs] at this
      rcases hd : Store.load (C.disk id) with e | g
      · simp [hd] at this
      · exact ⟨g, rfl⟩
    unfold cprepare at h
    rcases h1 : openAll C.disk C.ids k with e | k₁
    · obtain ⟨id, hm, e', he⟩ := openAll_err h1
      obtain ⟨g, hg⟩ := hall' id hm
      simp [hg] at he
    · simp only [h1] at h
      obtain ⟨hk₁, hs, -⟩ := openAll_ok hl hk h1
      rcases h2 : syncAll C.disk C.ids k₁ with e | k₂
      · obtain ⟨id, hm, e', he⟩ := syncAll_err hl hk₁ hs h2
        obtain ⟨g, hg⟩ := hall' id hm
        simp [hg] at he
      · simp only [h2] at h
        obtain ⟨-, -, h3⟩ := syncAll_ok hl hk₁ hs h2
        rcases hp : s.previousId with _ | p
        · simp [hp] at h
        · simp only [hp] at h ⊢
          by_cases hm : p ∈ C.ids
          · obtain ⟨g, -, hg⟩ := h3 p hm
            simp [hm, hg] at h
          · simp [CWorld.abs, hm]
  · rfl

theorem prepare_some {C : CWorld} {ws k s k' loc} (hl : VerLt C.disk) (hk : KeptOk C.disk k none)
    (h : cprepare C k s = some (k', loc)) :
    prepareSample (C.abs ws) s = some loc ∧ KeptOk C.disk k' none := by
  unfold cprepare at h
  rcases h1 : openAll C.disk C.ids k with e | k₁
  · simp [h1] at h
  · simp only [h1] at h
    obtain ⟨hk₁, hs, -⟩ := openAll_ok hl hk h1
    rcases h2 : syncAll C.disk C.ids k₁ with e | k₂
    · simp [h2] at h
    · simp only [h2] at h
      obtain ⟨hk₂, -, h3⟩ := syncAll_ok hl hk₁ hs h2
      unfold prepareSample
      split
      case isFalse hn =>
        refine absurd ?_ hn
        rw [List.all_eq_true]
        intro id hm
        obtain ⟨g, hg, -⟩ := h3 id hm
        simp [CWorld.abs, hg]
      rcases hp : s.previousId with _ | p
      · simp only [hp, Option.some.injEq, Prod.mk.injEq] at h
        obtain ⟨rfl, rfl⟩ := h
        exact ⟨rfl, hk₂⟩
      · simp only [hp] at h ⊢
        by_cases hm : p ∈ C.ids
        · obtain ⟨g, hg, hg'⟩ := h3 p hm
          simp only [hm, if_true, hg', Option.some.injEq, Prod.mk.injEq] at h
          obtain ⟨rfl, rfl⟩ := h
          simp [CWorld.abs, hm, hg, hk₂]
        · simp [hm] at h

/-- The positions of a worker with a cache and of one without correspond. -/
inductive PcRel (k : Cache) : CPC → PC → Prop
  | top : PcRel k .top .top
  | readErrors : PcRel k .readErrors .readErrors
  | sweepList : PcRel k .sweepList .sweepList
  | sweepOpen (todo all) : (∀ id ∈ todo, id ∈ all) →
      (∀ id ∈ all, id ∈ todo ∨ (k id).isSome) → PcRel k (.sweepOpen todo all) (.sweep all [])
  | sweepSync (todo seen) : (∀ id ∈ todo, (k id).isSome) →
      PcRel k (.sweepSync todo seen) (.sweep todo seen)
  | pendList : PcRel k .pendList .pendList
  | pendOpen (todo all) : (∀ id ∈ todo, id ∈ all) →
      (∀ id ∈ all, id ∈ todo ∨ (k id).isSome) → PcRel k (.pendOpen todo all) (.pend all [])
  | pendSync (todo found) : (∀ id ∈ todo, (k id).isSome) → (∀ p ∈ found, (k p.1).isSome) →
      PcRel k (.pendSync todo found) (.pend todo found)
  | fetch (id) : (k id).isSome → PcRel k (.fetch id) (.fetch id)
  | sample : PcRel k .sample .sample
  | claim (id h) : k id = some h → PcRel k (.claim id) (.claim id h)
  | eval (id h) : k id = some h → PcRel k (.eval id) (.eval id h)
  | report (id h t r) : k id = some ⟨t, h.ver⟩ → PcRel k (.report id r) (.report id h t r)
  | budget (t r) : PcRel k (.budget t r) (.budget t r)
  | logErr (t r e) : PcRel k (.logErr t r e) (.logErr t r e)
  | stopped (h) : PcRel k (.stopped h) (.stopped h)
  | raised (e) : PcRel k (.raised e) (.raised e)

/-- A worker with a cache and a worker without correspond. -/
structure WRel (x : CWorker) (y : Worker) : Prop where
  alive : x.alive = y.alive
  err : x.err = y.err
  count : x.count = y.count
  cost : x.cost = y.cost
  evalTime : x.evalTime = y.evalTime
  nFailed : x.nFailed = y.nFailed
  pc : PcRel x.kept x.pc y.pc

/-- The invariant of the simulation. -/
structure Sim (C : CWorld) (ws : Nat → Worker) : Prop where
  rel : ∀ w, WRel (C.worker w) (ws w)
  kept : ∀ w, KeptOk C.disk (C.worker w).kept (C.worker w).pc.changed
  verLt : VerLt C.disk

/-- Replace the state of one worker. -/
def upd (ws : Nat → Worker) (w : Nat) (y : Worker) : Nat → Worker :=
  fun w' => if w' = w then y else ws w'

theorem Sim.setW {C ws w x y} (S : Sim C ws) (h : WRel x y)
    (hk : KeptOk C.disk x.kept x.pc.changed) : Sim (C.setW w x) (upd ws w y) := by
  constructor
  · intro w'
    simp only [CWorld.setW, upd]
    split
    · exact h
    · exact S.rel w'
  · intro w'
    simp only [CWorld.setW]
    split
    · exact hk
    · exact S.kept w'
  · exact S.verLt

theorem Sim.emit {C ws e} (S : Sim C ws) : Sim (C.emit e) ws := ⟨S.rel, S.kept, S.verLt⟩

/-- After a write with a fresh version. -/
theorem Sim.setDisk {C ws id d} (S : Sim C ws) (hv : d.ver = some (C.disk id).next)
    (hn : d.next = (C.disk id).next + 1) : Sim (C.setDisk id d) ws := by
  refine ⟨S.rel, ?_, ?_⟩
  · intro w id' h he
    have := S.kept w id' h he
    simp only [CWorld.setDisk]
    split
    · rename_i hid
      subst hid
      refine ⟨by omega, fun h' _ => ?_⟩
      rw [hv, Option.some.injEq] at h'
      omega
    · exact this
  · intro id' v hv'
    simp only [CWorld.setDisk] at hv' ⊢
    split
    · rename_i hid
      subst hid
      simp only [if_true] at hv'
      rw [hv, Option.some.injEq] at hv'
      omega
    · rename_i hid
      simp only [hid, if_false] at hv'
      exact S.verLt _ _ hv'

theorem Sim.ids {C ws l} (S : Sim C ws) : Sim { C with ids := l } ws := ⟨S.rel, S.kept, S.verLt⟩

theorem Sim.budget {C ws b} (S : Sim C ws) : Sim { C with budget := b } ws :=
  ⟨S.rel, S.kept, S.verLt⟩

theorem Sim.errs {C ws b} (S : Sim C ws) : Sim { C with errs := b } ws :=
  ⟨S.rel, S.kept, S.verLt⟩

/-- Move on both sides. -/
theorem Sim.goto {C ws w pc pc'} (S : Sim C ws) (h : PcRel (C.worker w).kept pc pc')
    (hc' : (C.worker w).pc.changed = none) :
    Sim (C.goto w pc) (upd ws w { ws w with pc := pc' }) := by
  have hr := S.rel w
  refine S.setW ⟨hr.alive, hr.err, hr.count, hr.cost, hr.evalTime, hr.nFailed, h⟩ ?_
  have := S.kept w
  rw [hc'] at this
  exact this.weaken

/-- Move on both sides, with a new cache. -/
theorem Sim.gotoK {C ws w pc pc' k} (S : Sim C ws) (h : PcRel k pc pc')
    (hk : KeptOk C.disk k none) :
    Sim (C.gotoK w pc k) (upd ws w { ws w with pc := pc' }) := by
  have hr := S.rel w
  exact S.setW ⟨hr.alive, hr.err, hr.count, hr.cost, hr.evalTime, hr.nFailed, h⟩ hk.weaken

end Neps.Run
