import Verif.Run.CacheLemmas

/-!
# Every action of workers with caches is simulated by workers without
-/

namespace Neps.Run

open Neps.Store (Disk Handle)

variable {fs : String → Option PyFloat} {st : Nat → Settings} {C : CWorld} {ws : Nat → Worker}
  {w : Nat} {c : Choice}

/-- Actions of worker `w` lead from `W` to a world that corresponds to `C'`. -/
def Simulated (fs : String → Option PyFloat) (st : Nat → Settings) (W : World) (w : Nat)
    (C' : CWorld) : Prop :=
  ∃ as ws', run fs st W as = C'.abs ws' ∧ Sim C' ws' ∧ OnlyBy (· = w) as

theorem onlyBy_one (c : Choice) : OnlyBy (· = w) [.step w c] := by simp [OnlyBy, Act.who]

theorem onlyBy_replicate (n : Nat) (c : Choice) :
    OnlyBy (· = w) (List.replicate n (.step w c)) := by
  intro a h
  rw [List.eq_of_mem_replicate h]
  rfl

theorem run_one (ha : (ws w).alive = true) :
    run fs st (C.abs ws) [.step w c] = stepW fs (st w) (C.abs ws) w c := by
  simp [run, act, CWorld.abs, ha]

theorem sim_move {C' : CWorld} (S : Sim C ws) (ha : (C.worker w).alive = true)
    (hc : (C.worker w).pc.changed = none) {pc pc'} (h1 : C' = C.goto w pc)
    (h2 : stepW fs (st w) (C.abs ws) w c = (C.abs ws).goto w pc')
    (h : PcRel (C.worker w).kept pc pc') : Simulated fs st (C.abs ws) w C' := by
  refine ⟨[.step w c], upd ws w { ws w with pc := pc' }, ?_, ?_,
        onlyBy_one c⟩
  · rw [run_one (by rw [← (S.rel w).alive]; exact ha), h2, h1]
    rfl
  · rw [h1]
    exact S.goto h hc

theorem sim_moveK {C' : CWorld} (S : Sim C ws) (ha : (C.worker w).alive = true)
    {pc pc' k} (h1 : C' = C.gotoK w pc k)
    (h2 : stepW fs (st w) (C.abs ws) w c = (C.abs ws).goto w pc')
    (h : PcRel k pc pc') (hk : KeptOk C.disk k none) : Simulated fs st (C.abs ws) w C' := by
  refine ⟨[.step w c], upd ws w { ws w with pc := pc' }, ?_, ?_,
        onlyBy_one c⟩
  · rw [run_one (by rw [← (S.rel w).alive]; exact ha), h2, h1]
    rfl
  · rw [h1]
    exact S.gotoK h hk

theorem upd_same (ws : Nat → Worker) (w : Nat) : upd ws w (ws w) = ws := by
  funext w'; unfold upd; split <;> simp_all

/-- The worker without cache stays where it is. -/
theorem sim_stay {C' : CWorld} (S : Sim C ws) {pc k}
    (h1 : C' = C.gotoK w pc k) (h : PcRel k pc (ws w).pc) (hk : KeptOk C.disk k none) :
    Simulated fs st (C.abs ws) w C' := by
  refine ⟨[], ws, ?_, ?_, by simp [OnlyBy]⟩
  · rw [h1]; rfl
  · have := S.gotoK (w := w) h hk
    rw [show ({ ws w with pc := (ws w).pc } : Worker) = ws w from rfl, upd_same] at this
    rw [h1]; exact this

theorem goto_goto (W : World) (w a b) : (W.goto w a).goto w b = W.goto w b := by
  simp only [World.goto, World.setW, if_true, World.mk.injEq, true_and, and_true]
  funext w'; split <;> rfl

theorem sweep_fails (fs : String → Option PyFloat) (st : Nat → Settings) (w : Nat) (c : Choice)
    (id : String) : ∀ (all : List String) (seen : List Trial) (W : World),
    (W.worker w).pc = .sweep all seen → (W.worker w).alive = true → id ∈ all →
    (∃ e, Store.load (W.disk id) = .error e) →
    ∃ n, run fs st W (List.replicate n (.step w c)) = W.goto w (.raised .sweepFailed)
  | [], _, _, _, _, hm, _ => by simp at hm
  | id' :: all, seen, W, hpc, ha, hm, ⟨e, he⟩ => by
    rcases hl : Store.load (W.disk id') with e' | h
    · exact ⟨1, by simp [run, act, ha, stepW, hpc, hl]⟩
    · rcases List.mem_cons.1 hm with rfl | hm
      · simp [he] at hl
      · obtain ⟨n, hn⟩ := sweep_fails fs st w c id all (seen ++ [h.cur])
          (W.goto w (.sweep all (seen ++ [h.cur]))) (by simp) (by simpa using ha) hm ⟨e, he⟩
        refine ⟨n + 1, ?_⟩
        have : act fs st W (.step w c) = W.goto w (.sweep all (seen ++ [h.cur])) := by
          simp [act, ha, stepW, hpc, hl]
        rw [List.replicate_succ, run, List.foldl_cons, this]
        exact hn.trans (goto_goto _ _ _ _)

theorem pend_fails (fs : String → Option PyFloat) (st : Nat → Settings) (w : Nat) (c : Choice)
    (id : String) : ∀ (all : List String) (found : List (String × PyFloat)) (W : World),
    (W.worker w).pc = .pend all found → (W.worker w).alive = true → id ∈ all →
    (∃ e, Store.load (W.disk id) = .error e) →
    ∃ n, run fs st W (List.replicate n (.step w c)) = W.goto w (.raised .failedToGetNext)
  | [], _, _, _, _, hm, _ => by simp at hm
  | id' :: all, found, W, hpc, ha, hm, ⟨e, he⟩ => by
    rcases hl : Store.load (W.disk id') with e' | h
    · exact ⟨1, by simp [run, act, ha, stepW, hpc, hl]⟩
    · rcases List.mem_cons.1 hm with rfl | hm
      · simp [he] at hl
      · have key : ∃ found', act fs st W (.step w c) = W.goto w (.pend all found') := by
          by_cases hp : h.cur.state = .pending
          · exact ⟨_, by simp [act, ha, stepW, hpc, hl, hp]; rfl⟩
          · exact ⟨_, by simp [act, ha, stepW, hpc, hl, hp]; rfl⟩
        obtain ⟨found', hf⟩ := key
        obtain ⟨n, hn⟩ := pend_fails fs st w c id all found'
          (W.goto w (.pend all found')) (by simp) (by simpa using ha) hm ⟨e, he⟩
        refine ⟨n + 1, ?_⟩
        rw [List.replicate_succ, run, List.foldl_cons, hf]
        exact hn.trans (goto_goto _ _ _ _)

/-- Storing a trial with a new version. -/
theorem put_cases {D : Type} (x : D) (h : Handle D) (d : Disk D) :
    (d.ver = some h.ver ∧ Store.put x h d = (.ok ⟨x, d.next⟩, ⟨some d.next, some x, d.next + 1⟩)) ∨
    (d.ver ≠ some h.ver ∧ Store.put x h d = (.error .mismatch, d)) := by
  unfold Store.put
  by_cases hv : some h.ver = d.ver
  · left; exact ⟨hv.symm, by rw [if_pos hv]; simp [Store.bump, Store.write]⟩
  · right; exact ⟨fun h' => hv h'.symm, by rw [if_neg hv]⟩

theorem mem_of_sorted {found : List (String × PyFloat)} {id time rest}
    (h : sortByTime found = (id, time) :: rest) : (id, time) ∈ found := by
  have : (id, time) ∈ sortByTime found := by rw [h]; simp
  exact (List.perm_insertionSort _ found).mem_iff.1 this

theorem sim_cstep (fs : String → Option PyFloat) (st : Nat → Settings) (c : Choice)
    (S : Sim C ws) (ha : (C.worker w).alive = true) :
    Simulated fs st (C.abs ws) w (cstepW fs (st w) C w c) := by
  have hr := S.rel w
  have hk := S.kept w
  have ha' : (ws w).alive = true := by rw [← hr.alive]; exact ha
  have hp := hr.pc
  generalize hx : (C.worker w).pc = X at hp hk
  generalize hy : (ws w).pc = Y at hp
  have same : ∀ {C' : CWorld}, C' = C → Simulated fs st (C.abs ws) w C' := by
    rintro C' rfl
    exact ⟨[], ws, rfl, S, by simp [OnlyBy]⟩
  cases hp with
  | top =>
    rcases hl : localCheck (st w) (C.worker w).err (C.worker w).count (C.worker w).cost c.wall
      (C.worker w).evalTime with _ | h
    · have hl' := hl
      rw [hr.err, hr.count, hr.cost, hr.evalTime] at hl'
      by_cases h1 : (st w).readsErrors
      · exact sim_move (c := c) S ha (by rw [hx]; rfl) (by simp [cstepW, hx, hl, h1])
          (by simp [stepW, CWorld.abs, hy, hl', h1]) .readErrors
      · by_cases h2 : (st w).hasGlobalLimit
        · exact sim_move (c := c) S ha (by rw [hx]; rfl) (by simp [cstepW, hx, hl, h1, h2])
            (by simp [stepW, CWorld.abs, hy, hl', h1, h2]) .sweepList
        · exact sim_move (c := c) S ha (by rw [hx]; rfl) (by simp [cstepW, hx, hl, h1, h2])
            (by simp [stepW, CWorld.abs, hy, hl', h1, h2]) .pendList
    · have hl' := hl
      rw [hr.err, hr.count, hr.cost, hr.evalTime] at hl'
      by_cases h1 : h.raises
      · exact sim_move (c := c) S ha (by rw [hx]; rfl) (by simp [cstepW, hx, hl, h1])
          (by simp [stepW, CWorld.abs, hy, hl', h1]) (.raised .workerRaise)
      · exact sim_move (c := c) S ha (by rw [hx]; rfl) (by simp [cstepW, hx, hl, h1])
          (by simp [stepW, CWorld.abs, hy, hl', h1]) (.stopped h)
  | readErrors =>
    rcases hl : sharedErrCheck (st w) C.errs with _ | h
    · by_cases h2 : (st w).hasGlobalLimit
      · exact sim_move (c := c) S ha (by rw [hx]; rfl) (by simp [cstepW, hx, hl, h2])
          (by simp [stepW, CWorld.abs, hy, hl, h2]) .sweepList
      · exact sim_move (c := c) S ha (by rw [hx]; rfl) (by simp [cstepW, hx, hl, h2])
          (by simp [stepW, CWorld.abs, hy, hl, h2]) .pendList
    · by_cases h1 : h.raises
      · exact sim_move (c := c) S ha (by rw [hx]; rfl) (by simp [cstepW, hx, hl, h1])
          (by simp [stepW, CWorld.abs, hy, hl, h1]) (.raised .workerRaise)
      · exact sim_move (c := c) S ha (by rw [hx]; rfl) (by simp [cstepW, hx, hl, h1])
          (by simp [stepW, CWorld.abs, hy, hl, h1]) (.stopped h)
  | sweepList =>
    exact sim_move (c := c) S ha (by rw [hx]; rfl) (by simp only [cstepW, hx])
      (pc' := .sweep (clisting C c) []) (by simp only [stepW, CWorld.abs, hy]; rfl)
      (.sweepOpen _ _ (fun _ h => h) (fun _ h => Or.inl h))
  | sweepOpen todo all h1 h2 =>
    rcases todo with _ | ⟨id, todo⟩
    · refine sim_stay (w := w) S (k := (C.worker w).kept) (pc := .sweepSync all [])
        (by simp only [cstepW, hx]; rfl) ?_ hk
      rw [hy]
      exact .sweepSync _ _ (fun id hm => by simpa using h2 id hm)
    · rcases ho : (C.worker w).kept.open id (C.disk id) with e | k
      · obtain ⟨n, hn⟩ := sweep_fails fs st w c id all [] (C.abs ws) hy ha' (h1 id (by simp))
          (open_err ho)
        refine ⟨_, upd ws w { ws w with pc := .raised .sweepFailed }, hn.trans ?_, ?_, onlyBy_replicate _ _⟩
        · simp only [cstepW, hx, ho]; rfl
        · have := S.goto (w := w) (.raised .sweepFailed) (by rw [hx]; rfl)
          simp only [cstepW, hx, ho]
          exact this
      · obtain ⟨h3, h4, h5⟩ := open_ok hk S.verLt ho
        refine sim_stay (w := w) S (k := k) (pc := .sweepOpen todo all)
          (by simp only [cstepW, hx, ho]) ?_ h3
        rw [hy]
        refine .sweepOpen _ _ (fun id hm => h1 id (List.mem_cons_of_mem _ hm)) fun id' hm => ?_
        rcases h2 id' hm with h6 | h6
        · rcases List.mem_cons.1 h6 with rfl | h6
          · exact Or.inr h4
          · exact Or.inl h6
        · exact Or.inr (h5 _ h6)
  | sweepSync todo seen h1 =>
    rcases todo with _ | ⟨id, todo⟩
    · rcases hg : globalCheck (st w) seen with _ | h
      · exact sim_move (c := c) S ha (by rw [hx]; rfl) (by simp [cstepW, hx, hg])
          (by simp [stepW, CWorld.abs, hy, hg]) .pendList
      · exact sim_move (c := c) S ha (by rw [hx]; rfl) (by simp [cstepW, hx, hg])
          (by simp [stepW, CWorld.abs, hy, hg]) (.stopped h)
    · rcases hl : Store.load (C.disk id) with e | h
      · obtain ⟨e', he⟩ := sync_err hk (by simp [CPC.changed]) hl
        exact sim_move (c := c) S ha (by rw [hx]; rfl) (by simp [cstepW, hx, he])
          (by simp [stepW, CWorld.abs, hy, hl]) (.raised .sweepFailed)
      · have he := sync_ok hk (by simp [CPC.changed]) (h1 id (by simp)) hl
        exact sim_moveK (c := c) S ha (by simp only [cstepW, hx, he])
          (pc' := .sweep todo (seen ++ [h.cur])) (by simp [stepW, CWorld.abs, hy, hl])
          (.sweepSync _ _ fun id' hm =>
            Cache.set_isSome _ _ _ _ (h1 _ (List.mem_cons_of_mem _ hm)))
          (KeptOk.load hk S.verLt hl)
  | pendList =>
    exact sim_move (c := c) S ha (by rw [hx]; rfl) (by simp only [cstepW, hx])
      (pc' := .pend (clisting C c) []) (by simp only [stepW, CWorld.abs, hy]; rfl)
      (.pendOpen _ _ (fun _ h => h) (fun _ h => Or.inl h))
  | pendOpen todo all h1 h2 =>
    rcases todo with _ | ⟨id, todo⟩
    · refine sim_stay (w := w) S (k := (C.worker w).kept) (pc := .pendSync all [])
        (by simp only [cstepW, hx]; rfl) ?_ hk
      rw [hy]
      exact .pendSync _ _ (fun id hm => by simpa using h2 id hm) (by simp)
    · rcases ho : (C.worker w).kept.open id (C.disk id) with e | k
      · obtain ⟨n, hn⟩ := pend_fails fs st w c id all [] (C.abs ws) hy ha' (h1 id (by simp))
          (open_err ho)
        refine ⟨_, upd ws w { ws w with pc := .raised .failedToGetNext }, hn.trans ?_, ?_, onlyBy_replicate _ _⟩
        · simp only [cstepW, hx, ho]; rfl
        · have := S.goto (w := w) (.raised .failedToGetNext) (by rw [hx]; rfl)
          simp only [cstepW, hx, ho]
          exact this
      · obtain ⟨h3, h4, h5⟩ := open_ok hk S.verLt ho
        refine sim_stay (w := w) S (k := k) (pc := .pendOpen todo all)
          (by simp only [cstepW, hx, ho]) ?_ h3
        rw [hy]
        refine .pendOpen _ _ (fun id hm => h1 id (List.mem_cons_of_mem _ hm)) fun id' hm => ?_
        rcases h2 id' hm with h6 | h6
        · rcases List.mem_cons.1 h6 with rfl | h6
          · exact Or.inr h4
          · exact Or.inl h6
        · exact Or.inr (h5 _ h6)
  | pendSync todo found h1 h2 =>
    rcases todo with _ | ⟨id, todo⟩
    · rcases hs : sortByTime found with _ | ⟨⟨id, time⟩, rest⟩
      · exact sim_move (c := c) S ha (by rw [hx]; rfl) (by simp [cstepW, hx, hs])
          (by simp [stepW, CWorld.abs, hy, hs]) .sample
      · exact sim_move (c := c) S ha (by rw [hx]; rfl) (by simp [cstepW, hx, hs])
          (by simp [stepW, CWorld.abs, hy, hs]) (.fetch id (h2 _ (mem_of_sorted hs)))
    · rcases hl : Store.load (C.disk id) with e | h
      · obtain ⟨e', he⟩ := sync_err hk (by simp [CPC.changed]) hl
        exact sim_move (c := c) S ha (by rw [hx]; rfl) (by simp [cstepW, hx, he])
          (by simp [stepW, CWorld.abs, hy, hl]) (.raised .failedToGetNext)
      · have he := sync_ok hk (by simp [CPC.changed]) (h1 id (by simp)) hl
        by_cases hp : h.cur.state = .pending
        · refine sim_moveK (c := c) S ha (by simp only [cstepW, hx, he, hp, if_true])
            (pc' := .pend todo (found ++ [(id, h.cur.metadata.timeSampled)]))
            (by simp [stepW, CWorld.abs, hy, hl, hp])
            (.pendSync _ _ (fun id' hm =>
              Cache.set_isSome _ _ _ _ (h1 _ (List.mem_cons_of_mem _ hm))) ?_)
            (KeptOk.load hk S.verLt hl)
          intro p hm
          rcases List.mem_append.1 hm with hm | hm
          · exact Cache.set_isSome _ _ _ _ (h2 _ hm)
          · simp only [List.mem_cons, List.not_mem_nil, or_false] at hm
            subst hm
            simp [Cache.set]
        · exact sim_moveK (c := c) S ha (by simp only [cstepW, hx, he, hp, if_false])
            (pc' := .pend todo found) (by simp [stepW, CWorld.abs, hy, hl, hp])
            (.pendSync _ _ (fun id' hm =>
              Cache.set_isSome _ _ _ _ (h1 _ (List.mem_cons_of_mem _ hm)))
              (fun p hm => Cache.set_isSome _ _ _ _ (h2 _ hm)))
            (KeptOk.load hk S.verLt hl)
  | fetch id h1 =>
    rcases hl : Store.load (C.disk id) with e | h
    · obtain ⟨e', he⟩ := sync_err hk (by simp [CPC.changed]) hl
      exact sim_move (c := c) S ha (by rw [hx]; rfl) (by simp [cstepW, hx, he])
        (by simp [stepW, CWorld.abs, hy, hl]) (.raised .failedToGetNext)
    · have he := sync_ok hk (by simp [CPC.changed]) h1 hl
      exact sim_moveK (c := c) S ha (by simp only [cstepW, hx, he])
        (pc' := .claim id h) (by simp [stepW, CWorld.abs, hy, hl])
        (.claim _ _ (Cache.set_self _ _ _)) (KeptOk.load hk S.verLt hl)
  | sample =>
    rcases hask : c.ask with _ | s
    · exact sim_move (c := c) S ha (by rw [hx]; rfl) (by simp [cstepW, hx, hask])
        (by simp [stepW, CWorld.abs, hy, hask]) (.raised .failedToGetNext)
    · rcases hprep : cprepare C (C.worker w).kept s with _ | ⟨k, loc⟩
      · have h' := prepare_none (ws := ws) S.verLt hk hprep
        exact sim_move (c := c) S ha (by rw [hx]; rfl) (by simp [cstepW, hx, hask, hprep])
          (by simp only [stepW, hask, h']; simp [CWorld.abs, hy]) (.raised .failedToGetNext)
      · obtain ⟨h', hk'⟩ := prepare_some (ws := ws) S.verLt hk hprep
        by_cases hm : s.id ∈ C.ids
        · exact sim_move (c := c) S ha (by rw [hx]; rfl) (by simp [cstepW, hx, hask, hprep, hm])
            (by simp only [stepW, hask, h']; simp [CWorld.abs, hy, hm]) (.raised .failedToGetNext)
        · rcases hv : (C.disk s.id).ver with _ | v
          · have hn : Store.new (newTrial w s loc c.now) (C.disk s.id) =
                (.ok ⟨newTrial w s loc c.now, (C.disk s.id).next⟩,
                  ⟨some (C.disk s.id).next, some (newTrial w s loc c.now),
                    (C.disk s.id).next + 1⟩) := by
              simp [Store.new, hv, Store.bump, Store.write]
            refine ⟨[.step w c], upd ws w { ws w with
              pc := .claim s.id ⟨newTrial w s loc c.now, (C.disk s.id).next⟩ }, ?_, ?_,
        onlyBy_one c⟩
            · rw [run_one ha']
              simp only [stepW, cstepW, hx, hask, h', hprep]
              simp only [CWorld.abs, hy, hm, if_false, hn]
              rfl
            · simp only [cstepW, hx, hask, hprep, hm, if_false, hn]
              refine Sim.emit ?_
              refine Sim.gotoK (Sim.ids (S.setDisk rfl rfl)) (.claim _ _ (Cache.set_self _ _ _)) ?_
              have hk2 := (S.setDisk (id := s.id) (d := ⟨some (C.disk s.id).next,
                some (newTrial w s loc c.now), (C.disk s.id).next + 1⟩) rfl rfl)
              refine KeptOk.set (fun id h he => ?_) (by simp [CWorld.setDisk])
                (by simp [CWorld.setDisk])
              have := hk' id h he
              simp only [CWorld.setDisk]
              split
              · rename_i hid
                subst hid
                refine ⟨by simp; omega, fun h' _ => ?_⟩
                simp only [Option.some.injEq] at h'
                omega
              · exact this
          · exact sim_move (c := c) S ha (by rw [hx]; rfl)
              (by simp [cstepW, hx, hask, hprep, hm, Store.new, hv])
              (by simp only [stepW, hask, h']; simp [CWorld.abs, hy, hm, Store.new, hv]) (.raised .failedToGetNext)
  | claim id h h1 =>
    obtain ⟨h2, h3⟩ := hk id h h1
    set t := h.cur.setEvaluating c.now (workerName w) with ht
    rcases put_cases t h (C.disk id) with ⟨hv, hput⟩ | ⟨hv, hput⟩
    · have hput' : Store.put t ⟨t, h.ver⟩ (C.disk id) = _ := hput
      refine ⟨[.step w c], upd ws w { ws w with
        pc := .eval id ⟨t, (C.disk id).next⟩, nFailed := some 0 }, ?_, ?_,
        onlyBy_one c⟩
      · rw [run_one ha']
        simp only [stepW, cstepW, hx, h1, CWorld.abs, hy, ← ht, hput, hput']
        rfl
      · simp only [cstepW, hx, h1, ← ht, hput']
        refine Sim.emit (Sim.setW (S.setDisk rfl rfl)
          ⟨hr.alive, hr.err, hr.count, hr.cost, hr.evalTime, rfl,
            .eval _ _ (Cache.set_self _ _ _)⟩ ?_)
        refine KeptOk.set (fun id' h' he => ?_) (by simp [CWorld.setDisk])
          (by simp [CWorld.setDisk])
        have := hk id' h' he
        simp only [CWorld.setDisk]
        split
        · rename_i hid
          subst hid
          refine ⟨by simp; omega, fun h'' _ => ?_⟩
          simp only [Option.some.injEq] at h''
          omega
        · exact ⟨this.1, fun a _ => this.2 a (by simp [CPC.changed])⟩
    · have hput' : Store.put t ⟨t, h.ver⟩ (C.disk id) = _ := hput
      have hk' : KeptOk C.disk ((C.worker w).kept.set id ⟨t, h.ver⟩) none :=
        KeptOk.set hk h2 fun h' _ => absurd h' hv
      rcases hn : (C.worker w).nFailed with _ | n
      · have hn' : (ws w).nFailed = none := by rw [← hr.nFailed]; exact hn
        refine ⟨[.step w c], upd ws w { ws w with pc := .raised .unboundCounter }, ?_, ?_,
        onlyBy_one c⟩
        · rw [run_one ha']
          simp only [stepW, cstepW, hx, h1, CWorld.abs, hy, ← ht, hput, hput', hn', World.goto,
            World.setW]
          rfl
        · simp only [cstepW, hx, h1, ← ht, hput', CWorker.claimFailed, hn]
          exact Sim.emit (S.setW ⟨hr.alive, hr.err, hr.count, hr.cost, hr.evalTime, hn'.symm,
            .raised _⟩ hk'.weaken)
      · have hn' : (ws w).nFailed = some n := by rw [← hr.nFailed]; exact hn
        by_cases hge : n + 1 ≥ 10
        · refine ⟨[.step w c], upd ws w { ws w with
            pc := .raised .claimFailedTooOften, nFailed := some (n + 1) }, ?_, ?_,
        onlyBy_one c⟩
          · rw [run_one ha']
            simp only [stepW, cstepW, hx, h1, CWorld.abs, hy, ← ht, hput, hput', hn', hge, if_true]
            rfl
          · simp only [cstepW, hx, h1, ← ht, hput', CWorker.claimFailed, hn, hge, if_true]
            exact Sim.emit (S.setW ⟨hr.alive, hr.err, hr.count, hr.cost, hr.evalTime, rfl,
              .raised _⟩ hk'.weaken)
        · refine ⟨[.step w c], upd ws w { ws w with
            pc := .top, nFailed := some (n + 1) }, ?_, ?_,
        onlyBy_one c⟩
          · rw [run_one ha']
            simp only [stepW, cstepW, hx, h1, CWorld.abs, hy, ← ht, hput, hput', hn', hge, if_false]
            rfl
          · simp only [cstepW, hx, h1, ← ht, hput', CWorker.claimFailed, hn, hge, if_false]
            exact Sim.emit (S.setW ⟨hr.alive, hr.err, hr.count, hr.cost, hr.evalTime, rfl,
              .top⟩ hk'.weaken)
  | eval id h h1 =>
    obtain ⟨h2, h3⟩ := hk id h h1
    rcases he : evalTrial fs h.cur (st w).dv c.outcome c.now c.duration with e | ⟨t, r⟩
    · refine ⟨[.step w c], upd ws w { ws w with pc := .raised (.evaluation e) }, ?_, ?_,
        onlyBy_one c⟩
      · rw [run_one ha']
        simp only [stepW, cstepW, hx, h1, CWorld.abs, hy, he]
        rfl
      · simp only [cstepW, hx, h1, he]
        exact Sim.emit (S.goto (.raised _) (by rw [hx]; rfl))
    · refine ⟨[.step w c], upd ws w { ws w with
        pc := .report id h t r
        evalTime := (ws w).evalTime + c.duration
        count := (ws w).count + 1
        cost := (ws w).cost + r.cost.getD 0
        err := match r.err with | some e => some e | none => (ws w).err }, ?_, ?_,
        onlyBy_one c⟩
      · rw [run_one ha']
        simp only [stepW, cstepW, hx, h1, CWorld.abs, hy, he]
        rfl
      · simp only [cstepW, hx, h1, he]
        refine Sim.emit (S.setW ⟨hr.alive, ?_, ?_, ?_, ?_, hr.nFailed,
          .report _ _ _ _ (Cache.set_self _ _ _)⟩ ?_)
        · simp only [hr.err]
          rcases r.err <;> rfl
        · simp only [hr.count]
        · simp only [hr.cost]
        · simp only [hr.evalTime]
        · refine KeptOk.set (fun id' h' he => ?_) h2 (by simp [CPC.changed])
          exact ⟨(hk id' h' he).1, fun a _ => (hk id' h' he).2 a (by simp [CPC.changed])⟩
  | report id h t r h1 =>
    obtain ⟨h2, -⟩ := hk id _ h1
    rcases put_cases { t with report := some r } h (C.disk id) with ⟨hv, hput⟩ | ⟨hv, hput⟩
    · have hput' : Store.put { t with report := some r } ⟨t, h.ver⟩ (C.disk id) = _ := hput
      refine ⟨[.step w c], upd ws w { ws w with pc := .budget t r }, ?_, ?_,
        onlyBy_one c⟩
      · rw [run_one ha']
        simp only [stepW, cstepW, hx, h1, CWorld.abs, hy, hput, hput']
        rfl
      · simp only [cstepW, hx, h1, hput']
        refine Sim.emit (Sim.gotoK (S.setDisk rfl rfl) (.budget _ _) ?_)
        refine fun id' h' he => ?_
        by_cases hid : id' = id
        · subst hid
          rw [Cache.set_self] at he
          cases he
          simp [CWorld.setDisk]
        · rw [Cache.set_ne _ _ hid] at he
          have := hk id' h' he
          simp only [CWorld.setDisk, hid, if_false]
          exact ⟨this.1, fun a _ => this.2 a (by simp [CPC.changed]; exact fun h => hid h.symm)⟩
    · have hput' : Store.put { t with report := some r } ⟨t, h.ver⟩ (C.disk id) = _ := hput
      refine ⟨[.step w c], upd ws w { ws w with pc := .raised .reportRejected }, ?_, ?_,
        onlyBy_one c⟩
      · rw [run_one ha']
        simp only [stepW, cstepW, hx, h1, CWorld.abs, hy, hput, hput']
        rfl
      · simp only [cstepW, hx, h1, hput']
        refine S.setW ⟨hr.alive, hr.err, hr.count, hr.cost, hr.evalTime, hr.nFailed, .raised _⟩ ?_
        intro id' h' he
        by_cases hid : id' = id
        · subst hid
          simp only at he
          rw [h1] at he
          cases he
          exact ⟨h2, fun a => absurd a hv⟩
        · have := hk id' h' he
          exact ⟨this.1, fun a _ => this.2 a (by simp [CPC.changed]; exact fun h => hid h.symm)⟩
  | budget t r =>
    rcases he : r.err with _ | e
    · refine ⟨[.step w c], upd ws w { ws w with pc := .top }, ?_, ?_,
        onlyBy_one c⟩
      · rw [run_one ha']
        simp only [stepW, cstepW, hx, CWorld.abs, hy, he]
        rfl
      · simp only [cstepW, hx, he]
        exact Sim.emit (Sim.goto (S.budget) .top (by simp only [hx]; rfl))
    · refine ⟨[.step w c], upd ws w { ws w with pc := .logErr t r e }, ?_, ?_,
        onlyBy_one c⟩
      · rw [run_one ha']
        simp only [stepW, cstepW, hx, CWorld.abs, hy, he]
        rfl
      · simp only [cstepW, hx, he]
        exact Sim.emit (Sim.goto (S.budget) (.logErr _ _ _) (by simp only [hx]; rfl))
  | logErr t r e =>
    refine ⟨[.step w c], upd ws w { ws w with pc := .top }, ?_, ?_,
        onlyBy_one c⟩
    · rw [run_one ha']
      simp only [stepW, cstepW, hx, CWorld.abs, hy]
      rfl
    · simp only [cstepW, hx]
      exact Sim.emit (Sim.goto (S.errs) .top (by simp only [hx]; rfl))
  | stopped h => exact same (by simp only [cstepW, hx])
  | raised e => exact same (by simp only [cstepW, hx])

theorem Sim.killW (S : Sim C ws) : Sim (C.killW w) (upd ws w { ws w with alive := false }) := by
  have hr := S.rel w
  exact S.setW ⟨rfl, hr.err, hr.count, hr.cost, hr.evalTime, hr.nFailed, hr.pc⟩ (S.kept w)

theorem setDisk_same (C : CWorld) (id : String) : C.setDisk id (C.disk id) = C := by
  have : (C.setDisk id (C.disk id)).disk = C.disk := by
    funext id'; simp only [CWorld.setDisk]; split <;> simp_all
  unfold CWorld.setDisk at this ⊢
  obtain ⟨ids, disk, budget, errs, worker, log⟩ := C
  simp_all

theorem sim_cact (fs : String → Option PyFloat) (st : Nat → Settings) (a : CAct)
    (hl : a.gotLock) (S : Sim C ws) : Simulated fs st (C.abs ws) a.who (cact fs st C a) := by
  rcases a with ⟨w, c⟩ | w | ⟨w, c, torn⟩ | ⟨w, c⟩
  · by_cases ha : (C.worker w).alive = true
    · have : cact fs st C (.step w c) = cstepW fs (st w) C w c := by simp [cact, ha]
      rw [this]
      exact sim_cstep fs st c S ha
    · exact ⟨[], ws, by simp [run, cact, ha], by simpa [cact, ha] using S,
        by simp [OnlyBy]⟩
  · exact ⟨[.kill w], upd ws w { ws w with alive := false }, rfl, S.killW,
      by simp [OnlyBy, Act.who, CAct.who]⟩
  · by_cases ha : (C.worker w).alive = true
    · have hr := S.rel w
      have hk := S.kept w
      have ha' : (ws w).alive = true := by rw [← hr.alive]; exact ha
      by_cases hx : (C.worker w).pc = .sample
      · have hy : (ws w).pc = .sample := by
          have := hr.pc
          rw [hx] at this
          generalize (ws w).pc = Y at this
          cases this
          rfl
        have ha2 : ((C.abs ws).worker w).alive = true := ha'
        have hy2 : ((C.abs ws).worker w).pc = .sample := hy
        rw [hx] at hk
        refine ⟨[.killCreating w c torn], upd ws w { ws w with alive := false }, ?_, ?_,
        by simp [OnlyBy, Act.who, CAct.who]⟩
        · simp only [run, List.foldl_cons, List.foldl_nil]
          rcases hask : c.ask with _ | s
          · simp only [act, cact, ha, ha2, if_true, hx, hy2, hask]
            rfl
          · rcases hprep : cprepare C (C.worker w).kept s with _ | ⟨k, loc⟩
            · have h' := prepare_none (ws := ws) S.verLt hk hprep
              simp only [act, cact, ha, ha2, if_true, hx, hy2, hask, hprep, h']
              rfl
            · obtain ⟨h', -⟩ := prepare_some (ws := ws) S.verLt hk hprep
              simp only [act, cact, ha, ha2, if_true, hx, hy2, hask, hprep, h']
              by_cases hm : s.id ∈ C.ids
              · have hm2 : s.id ∈ (C.abs ws).ids := hm
                simp only [hm, hm2, if_true]
                rfl
              · have hm2 : s.id ∉ (C.abs ws).ids := hm
                simp only [hm, hm2, if_false]
                rfl
        · rcases hask : c.ask with _ | s
          · simp only [cact, ha, if_true, hx, hask]
            exact S.killW
          · rcases hprep : cprepare C (C.worker w).kept s with _ | ⟨k, loc⟩
            · simp only [cact, ha, if_true, hx, hask, hprep]
              exact S.killW
            · simp only [cact, ha, if_true, hx, hask, hprep]
              by_cases hm : s.id ∈ C.ids
              · simp only [hm, if_true]
                exact S.killW
              · simp only [hm, if_false]
                have S' : Sim (C.setDisk s.id
                    (if torn = true then (Store.bump (C.disk s.id)).2 else C.disk s.id)) ws := by
                  split
                  · exact S.setDisk rfl rfl
                  · rw [setDisk_same]; exact S
                exact Sim.killW (C := { (C.setDisk s.id
                    (if torn = true then (Store.bump (C.disk s.id)).2 else C.disk s.id)) with
                    ids := C.ids ++ [s.id] }) S'.ids
      · refine ⟨[.kill w], upd ws w { ws w with alive := false }, ?_, ?_,
        by simp [OnlyBy, Act.who, CAct.who]⟩
        · have : cact fs st C (.killCreating w c torn) = C.killW w := by
            simp only [cact, ha, if_true]
            try (split <;> simp_all)
          rw [this]; rfl
        · have : cact fs st C (.killCreating w c torn) = C.killW w := by
            simp only [cact, ha, if_true]
            try (split <;> simp_all)
          rw [this]; exact S.killW
    · exact ⟨[], ws, by simp [run, cact, ha], by simpa [cact, ha] using S,
        by simp [OnlyBy]⟩
  · exact hl.elim

theorem sim_crun (fs : String → Option PyFloat) (st : Nat → Settings) :
    ∀ (as : List CAct) (C : CWorld) (ws : Nat → Worker), (∀ a ∈ as, a.gotLock) → Sim C ws →
      ∃ bs ws', run fs st (C.abs ws) bs.flatten = (crun fs st C as).abs ws' ∧
        Sim (crun fs st C as) ws' ∧ List.Forall₂ (fun a b => OnlyBy (· = a.who) b) as bs
  | [], C, ws, _, S => ⟨[], ws, rfl, S, .nil⟩
  | a :: as, C, ws, hl, S => by
    obtain ⟨b, ws', h1, S', hb⟩ := sim_cact fs st a (hl a (by simp)) S
    obtain ⟨bs, ws'', h2, S'', hbs⟩ := sim_crun fs st as _ ws'
      (fun b hb => hl b (List.mem_cons_of_mem _ hb)) S'
    refine ⟨b :: bs, ws'', ?_, S'', .cons hb hbs⟩
    rw [List.flatten_cons, run, List.foldl_append]
    rw [run] at h1 h2
    rw [h1, h2]
    rfl

theorem sim_init : Sim {} (fun _ => {}) := by
  refine ⟨fun _ => ⟨rfl, rfl, rfl, rfl, rfl, rfl, .top⟩, ?_, ?_⟩
  · intro w id h he
    simp at he
  · intro id v hv
    simp [Disk.empty] at hv

end Neps.Run
