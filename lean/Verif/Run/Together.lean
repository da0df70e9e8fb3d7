import Verif.Run.Progress
import Verif.Run.TogetherSpec
import Mathlib.Algebra.Order.BigOperators.Group.Finset
import Mathlib.Tactic.Ring

/-!
# Workers that run together come to an end: a general argument

Every worker has an allowance, `m`, of rounds of its loop. If a round that ends with a claim, won or
lost, uses up a part of the allowance, and allowances are only renewed when a global allowance `u`
goes down, then the workers cannot go on forever.
-/

namespace Neps.Run

open Neps.Store (Disk Handle)

/-- How far a worker is from the end of its round when the directory has at most `L` trials. -/
def PC.rank (L : Nat) : PC → Nat
  | .top => 2 * L + 11
  | .readErrors => 2 * L + 10
  | .sweepList => 2 * L + 9
  | .sweep todo _ => L + 8 + todo.length
  | .pendList => L + 7
  | .pend todo _ => 6 + todo.length
  | .fetch _ | .sample => 5
  | .claim _ _ => 4
  | .report _ _ _ _ => 2 * L + 14
  | .budget _ _ => 2 * L + 13
  | .logErr _ _ _ => 2 * L + 12
  | .eval _ _ | .stopped _ | .raised _ => 0

/-- Bound for the steps of a worker with allowance `m`, or `m'` once its evaluation is over. -/
def cost (L m m' : Nat) (x : Worker) : Nat :=
  if x.alive = false then 0 else
  match x.pc with
  | .stopped _ | .raised _ => 0
  | .eval _ _ => m' * (2 * L + 12) + (2 * L + 15)
  | pc => m * (2 * L + 12) + pc.rank L

/-- Bound for the trials the worker can still create. -/
def births (m m' : Nat) (x : Worker) : Nat :=
  if x.alive = false then 0 else
  match x.pc with
  | .stopped _ | .raised _ => 0
  | .eval _ _ => m' + 1
  | .claim _ _ => m
  | _ => m + 1

/-- How a step from `p` to `p'` uses up the allowance: `a` before and `b` after the step, `a'` and `b'`
for once the evaluation is over. -/
def Spends (a a' b b' : Nat) (p p' : PC) : Prop :=
  match p, p' with
  | .claim _ _, .eval _ _ => b' + 1 ≤ a
  | .claim _ _, .top => b + 1 ≤ a
  | .eval _ _, .report _ _ _ _ => b ≤ a'
  | .eval _ _, .eval _ _ => b' ≤ a'
  | .stopped _, _ | .raised _, _ | _, .stopped _ | _, .raised _ => True
  | _, _ => b ≤ a

/-- How a step of `w` uses up the allowances. -/
def Pays (m m' : World → Nat → Nat) (W : World) (w : Nat) (W' : World) : Prop :=
  (∀ v, v ≠ w → m W' v ≤ m W v ∧ m' W' v ≤ m' W v) ∧
  Spends (m W w) (m' W w) (m W' w) (m' W' w) (W.worker w).pc (W'.worker w).pc

theorem mul_low {a b T r s : Nat} (h : a ≤ b) (hr : r < s) : a * T + r < b * T + s := by
  have := Nat.mul_le_mul_right T h
  omega

theorem mul_high {a b T r s : Nat} (h : a + 1 ≤ b) (hr : r < T + s) : a * T + r < b * T + s := by
  have := Nat.mul_le_mul_right T h
  rw [Nat.succ_mul] at this
  omega

/-- A step of a worker that is not through changes its program counter. -/
theorem stepW_moves (fs st) (W : World) (w : Nat) (c : Choice)
    (h1 : ∀ h, (W.worker w).pc ≠ .stopped h) (h2 : ∀ e, (W.worker w).pc ≠ .raised e) :
    ((stepW fs st W w c).worker w).pc ≠ (W.worker w).pc := by
  cases hpc : (W.worker w).pc with
  | stopped h => exact absurd hpc (h1 h)
  | raised e => exact absurd hpc (h2 e)
  | top => simp only [stepW, hpc]; repeat' split
           all_goals simp
  | readErrors => simp only [stepW, hpc]; repeat' split
                  all_goals simp
  | sweepList => simp [stepW, hpc]
  | sweep todo seen =>
    cases todo with
    | nil => simp only [stepW, hpc]; split <;> simp
    | cons id todo => simp only [stepW, hpc]; split <;> simp
  | pendList => simp [stepW, hpc]
  | pend todo found =>
    cases todo with
    | nil => simp only [stepW, hpc]; split <;> simp
    | cons id todo => simp only [stepW, hpc]; repeat' split
                      all_goals simp
  | fetch id => simp only [stepW, hpc]; split <;> simp
  | sample => simp only [stepW, hpc]; repeat' split
              all_goals simp
  | claim id h => simp only [stepW, hpc]; repeat' split
                  all_goals simp
  | eval id h => simp only [stepW, hpc]; split <;> simp
  | report id h t r => simp only [stepW, hpc]; split <;> simp
  | budget t r => simp only [stepW, hpc]; split <;> simp
  | logErr t r e => simp [stepW, hpc]

section
variable {fs : String → Option PyFloat} {st : Nat → Settings} {W W' : World} {w a a' b b' : Nat}

theorem Spends.births (t : Trans fs st W w W')
    (hp : Spends a a' b b' (W.worker w).pc (W'.worker w).pc) (hne : W' ≠ W) :
    W'.ids.length + births b b' (W'.worker w) ≤ W.ids.length + births a a' (W.worker w) := by
  cases t with
  | idle => exact absurd rfl hne
  | kill => simp [Run.births]
  | torn s loc v n ha hpc hl hi hvn => simp [Run.births, ha, hpc]
  | step c _ ha s =>
    cases s with
    | idle => exact absurd rfl hne
    | move pc' mv =>
      generalize hpc : (W.worker w).pc = pc at mv hp
      cases mv <;> (simp [Spends] at hp; simp [Run.births, ha, hpc, hp])
    | fetch id h hpc hl => simp [hpc, Spends] at hp; simp [Run.births, ha, hpc]; omega
    | create s loc hpc hs hl hi hv => simp [hpc, Spends] at hp; simp [Run.births, ha, hpc]; omega
    | claimOk id h hpc hv => simp [hpc, Spends] at hp; simp [Run.births, ha, hpc]; omega
    | claimLost id h pc' n hpc hv ho =>
      rcases ho with ⟨rfl, _⟩ | rfl | rfl
      · simp [hpc, Spends] at hp; simp [Run.births, ha, hpc]; omega
      · simp [Run.births, ha, hpc]
      · simp [Run.births, ha, hpc]
    | evalErr id h e hpc he => simp [Run.births, ha, hpc]
    | evalOk id h t r hpc he => simp [hpc, Spends] at hp; simp [Run.births, ha, hpc]; omega
    | reportOk id h t r hpc hv => simp [hpc, Spends] at hp; simp [Run.births, ha, hpc]; omega
    | budget t r pc' hpc ho =>
      rcases ho with ⟨rfl, _⟩ | ⟨_, _, rfl⟩ <;> simp [hpc, Spends] at hp <;>
        simp [Run.births, ha, hpc] <;> omega
    | logErr t r e hpc => simp [hpc, Spends] at hp; simp [Run.births, ha, hpc]; omega

theorem Spends.cost {L : Nat} (t : Trans fs st W w W')
    (hp : Spends a a' b b' (W.worker w).pc (W'.worker w).pc) (hL : W.ids.length ≤ L) :
    cost L b b' (W'.worker w) < cost L a a' (W.worker w) ∨ (W'.worker w).alive = false ∨
      W' = W := by
  cases t with
  | idle => simp
  | kill => simp
  | torn s loc v n ha hpc hl hi hvn => simp
  | step c _ ha s =>
    cases s with
    | idle => simp
    | move pc' mv =>
      left
      generalize hpc : (W.worker w).pc = pc at mv hp
      cases mv <;> simp [Spends] at hp <;> simp only [Run.cost, ha, hpc, goto_worker, if_true,
        Bool.true_eq_false, if_false] <;>
        first
        | (apply mul_low hp
           simp [PC.rank]
           done)
        | (apply mul_low hp
           simp [PC.rank]
           try (have := List.Perm.length_eq ‹_›)
           omega)
        | (simp [PC.rank]; done)
    | fetch id h hpc hl =>
      left; simp [hpc, Spends] at hp
      simp only [Run.cost, ha, hpc, goto_worker, if_true, Bool.true_eq_false, if_false]
      exact mul_low hp (by simp [PC.rank])
    | create s loc hpc hs hl hi hv =>
      left; simp [hpc, Spends] at hp
      simp only [Run.cost, ha, hpc, emit_worker, goto_worker, setDisk_worker, if_true,
        Bool.true_eq_false, if_false]
      exact mul_low hp (by simp [PC.rank])
    | claimOk id h hpc hv =>
      left; simp [hpc, Spends] at hp
      simp only [Run.cost, ha, hpc, emit_worker, setW_worker, if_true, Bool.true_eq_false, if_false]
      exact mul_high hp (by simp [PC.rank])
    | claimLost id h pc' n hpc hv ho =>
      left
      rcases ho with ⟨rfl, _⟩ | rfl | rfl <;> simp [hpc, Spends] at hp <;>
        simp only [Run.cost, ha, hpc, emit_worker, setW_worker, if_true, Bool.true_eq_false, if_false]
      · exact mul_high hp (by simp [PC.rank])
      · simp [PC.rank]
      · simp [PC.rank]
    | evalErr id h e hpc he => left; simp [Run.cost, ha, hpc]
    | evalOk id h t r hpc he =>
      left; simp [hpc, Spends] at hp
      simp only [Run.cost, ha, hpc, emit_worker, setW_worker, if_true, Bool.true_eq_false, if_false]
      exact mul_low hp (by simp [PC.rank])
    | reportOk id h t r hpc hv =>
      left; simp [hpc, Spends] at hp
      simp only [Run.cost, ha, hpc, emit_worker, goto_worker, setDisk_worker, if_true,
        Bool.true_eq_false, if_false]
      exact mul_low hp (by simp [PC.rank])
    | budget t r pc' hpc ho =>
      left
      rcases ho with ⟨rfl, _⟩ | ⟨_, _, rfl⟩ <;> simp [hpc, Spends] at hp <;>
        simp only [Run.cost, ha, hpc, emit_worker, goto_worker, if_true, Bool.true_eq_false,
          if_false] <;>
        exact mul_low hp (by simp [PC.rank])
    | logErr t r e hpc =>
      left; simp [hpc, Spends] at hp
      simp only [Run.cost, ha, hpc, emit_worker, goto_worker, if_true, Bool.true_eq_false, if_false]
      exact mul_low hp (by simp [PC.rank])

end

/-- All allowances together. -/
def total (f : Nat → Nat) (n : Nat) : Nat := ∑ w ∈ Finset.range n, f w

theorem total_lt {f g : Nat → Nat} {n w : Nat} (hw : w < n) (h : ∀ v, v ≠ w → f v ≤ g v)
    (hlt : f w < g w) : total f n < total g n := by
  refine Finset.sum_lt_sum (fun v _ => ?_) ⟨w, Finset.mem_range.mpr hw, hlt⟩
  by_cases e : v = w
  · subst e; omega
  · exact h v e

theorem total_le {f g : Nat → Nat} {n : Nat} (h : ∀ v, f v ≤ g v) : total f n ≤ total g n :=
  Finset.sum_le_sum (fun v _ => h v)

theorem total_le_of {f : Nat → Nat} {n b : Nat} (h : ∀ v < n, f v ≤ b) : total f n ≤ n * b := by
  have := Finset.sum_le_card_nsmul (Finset.range n) f b
    (fun v hv => h v (Finset.mem_range.mp hv))
  simpa [total] using this

theorem total_add_le {f g : Nat → Nat} {n w c d : Nat} (hw : w < n) (h : ∀ v, v ≠ w → f v ≤ g v)
    (hle : c + f w ≤ d + g w) : c + total f n ≤ d + total g n := by
  unfold total
  rw [← Finset.add_sum_erase _ f (Finset.mem_range.mpr hw),
    ← Finset.add_sum_erase _ g (Finset.mem_range.mpr hw)]
  have : ∑ x ∈ (Finset.range n).erase w, f x ≤ ∑ x ∈ (Finset.range n).erase w, g x :=
    Finset.sum_le_sum (fun v hv => h v (Finset.ne_of_mem_erase hv))
  omega

theorem births_mono {a a' b b' : Nat} (x : Worker) (h : b ≤ a) (h' : b' ≤ a') :
    births b b' x ≤ births a a' x := by
  unfold births
  split
  · exact le_refl _
  · split <;> omega

theorem births_le {a a' c : Nat} (x : Worker) (h : a ≤ c) (h' : a' ≤ c) :
    births a a' x ≤ c + 1 := by
  unfold births
  split
  · omega
  · split <;> omega

theorem cost_mono {L a a' b b' : Nat} (x : Worker) (h : b ≤ a) (h' : b' ≤ a') :
    cost L b b' x ≤ cost L a a' x := by
  unfold cost
  split
  · exact le_refl _
  · have h1 := Nat.mul_le_mul_right (2 * L + 12) h
    have h2 := Nat.mul_le_mul_right (2 * L + 12) h'
    split <;> omega

/-- The lists a worker goes through are not longer than `L`. -/
def PC.Fits (L : Nat) : PC → Prop
  | .sweep todo _ => todo.length ≤ L
  | .pend todo _ => todo.length ≤ L
  | _ => True

theorem cost_le {L a a' c : Nat} (x : Worker) (h : a ≤ c) (h' : a' ≤ c) (hf : x.pc.Fits L) :
    cost L a a' x ≤ (c + 2) * (2 * L + 12) := by
  have h1 := Nat.mul_le_mul_right (2 * L + 12) h
  have h2 := Nat.mul_le_mul_right (2 * L + 12) h'
  have e : (c + 2) * (2 * L + 12) = c * (2 * L + 12) + 2 * (2 * L + 12) := by ring
  unfold cost
  rw [e]
  split
  · omega
  · split
    · omega
    · omega
    · omega
    · have : x.pc.rank L ≤ 2 * L + 14 := by
        cases hx : x.pc <;> simp [PC.rank, hx, PC.Fits] at hf ⊢ <;> omega
      omega

theorem cost_pos {L a a' : Nat} {W : World} {w : Nat} (h : ¬ Through W w) :
    0 < cost L a a' (W.worker w) := by
  unfold Through at h
  simp only [not_or, Bool.not_eq_false, not_exists] at h
  obtain ⟨h1, h2, h3⟩ := h
  simp only [cost, h1, Bool.true_eq_false, if_false]
  cases hpc : (W.worker w).pc with
  | stopped x => exact absurd hpc (h2 x)
  | raised x => exact absurd hpc (h3 x)
  | _ => simp [PC.rank]

section
variable {fs : String → Option PyFloat} {st : Nat → Settings} {W W' : World} {w : Nat}

theorem Trans.ids_grow (t : Trans fs st W w W') :
    W.ids.length ≤ W'.ids.length ∧ W'.ids.length ≤ W.ids.length + 1 := by
  cases t with
  | idle => simp
  | kill => simp
  | torn => simp
  | step c _ ha s => cases s <;> simp

theorem PC.Fits.mono {L L' : Nat} {pc : PC} (h : pc.Fits L) (hl : L ≤ L') : pc.Fits L' := by
  cases pc <;> simp [PC.Fits] at h ⊢ <;> omega

theorem fits_trans (t : Trans fs st W w W') (I : ∀ v, (W.worker v).pc.Fits W.ids.length) (v : Nat) :
    (W'.worker v).pc.Fits W'.ids.length := by
  by_cases e : v = w
  case neg => rw [t.other e]; exact (I v).mono t.ids_grow.1
  subst e
  have I := I v
  cases t with
  | idle => exact I
  | kill => simpa using I
  | torn s loc x n ha hpc => simp [hpc, PC.Fits]
  | step c _ ha s =>
    cases s with
    | idle => exact I
    | move pc' mv =>
      generalize hpc : (W.worker v).pc = pc at mv I
      cases mv <;> simp [PC.Fits] at I ⊢ <;>
        first
        | omega
        | exact le_of_eq (List.Perm.length_eq ‹_›)
    | claimLost id h pc' n hpc hv ho =>
      rcases ho with ⟨rfl, _⟩ | rfl | rfl <;> simp [PC.Fits]
    | budget t r pc' hpc ho =>
      rcases ho with ⟨rfl, _⟩ | ⟨_, _, rfl⟩ <;> simp [PC.Fits]
    | _ => simp [PC.Fits]

end

/-- Allowances that are used up. -/
structure Scheme (fs : String → Option PyFloat) (st : Nat → Settings) (n : Nat) where
  m : World → Nat → Nat
  m' : World → Nat → Nat
  u : World → Nat
  c : Nat
  Inv : World → Prop
  le : ∀ W, ∀ w < n, m W w ≤ c ∧ m' W w ≤ c
  init : Inv {}
  inv : ∀ W w W', w < n → Inv W → Trans fs st W w W' → Inv W'
  pay : ∀ W w W', w < n → Inv W → Trans fs st W w W' →
    u W' + 1 ≤ u W ∨ u W' ≤ u W ∧ Pays m m' W w W'

namespace Scheme
variable {fs : String → Option PyFloat} {st : Nat → Settings} {n : Nat} (S : Scheme fs st n)

/-- Bound for the trials that can still be created. -/
def newTrials (W : World) : Nat :=
  S.u W * (n * (S.c + 1) + 1) + total (fun w => births (S.m W w) (S.m' W w) (W.worker w)) n

/-- Bound for the number of trials. -/
def size : Nat := S.newTrials {}

/-- Bound for the steps. -/
def steps (W : World) : Nat :=
  S.u W * (n * ((S.c + 2) * (2 * S.size + 12)) + 1) +
    total (fun w => cost S.size (S.m W w) (S.m' W w) (W.worker w)) n

/-- What holds in every state. -/
structure Good (W : World) : Prop where
  inv : S.Inv W
  fits : ∀ v, (W.worker v).pc.Fits W.ids.length
  room : W.ids.length + S.newTrials W ≤ S.size

theorem good_init : S.Good {} where
  inv := S.init
  fits := by simp [PC.Fits]
  room := by simp [size]

theorem jump {u u' A x x' : Nat} (h : u' + 1 ≤ u) (hx : x' + 1 ≤ A) : u' * A + x' + 1 ≤ u * A + x := by
  have := Nat.mul_le_mul_right A h
  rw [Nat.succ_mul] at this
  omega

theorem Good.trans {S : Scheme fs st n} {W W' : World} {w : Nat} (G : S.Good W) (hw : w < n)
    (t : Trans fs st W w W') : S.Good W' where
  inv := S.inv W w W' hw G.inv t
  fits := fits_trans t G.fits
  room := by
    refine le_trans ?_ G.room
    unfold newTrials
    rcases S.pay W w W' hw G.inv t with h | ⟨hu, hp⟩
    · have h1 := total_le_of (f := fun w => births (S.m W' w) (S.m' W' w) (W'.worker w)) (n := n)
        (fun v hv => births_le _ (S.le W' v hv).1 (S.le W' v hv).2)
      have h2 := jump (A := n * (S.c + 1) + 1)
        (x := total (fun w => births (S.m W w) (S.m' W w) (W.worker w)) n) h
        (Nat.succ_le_succ h1)
      have h3 := t.ids_grow.2
      omega
    · by_cases e : W' = W
      · rw [e]
      · have h1 := Spends.births t hp.2 e
        have h2 := Nat.mul_le_mul_right (n * (S.c + 1) + 1) hu
        have h3 := total_add_le (f := fun w => births (S.m W' w) (S.m' W' w) (W'.worker w))
          (g := fun w => births (S.m W w) (S.m' W w) (W.worker w)) (n := n) hw (fun v hv => by
            simp only [t.other hv]
            exact births_mono _ (hp.1 v hv).1 (hp.1 v hv).2) h1
        omega

theorem Good.length_le {S : Scheme fs st n} {W : World} (G : S.Good W) :
    W.ids.length ≤ S.size := by
  have := G.room; omega

theorem Good.jumps {S : Scheme fs st n} {W W' : World} {w : Nat} (G : S.Good W) (hw : w < n)
    (t : Trans fs st W w W') (h : S.u W' + 1 ≤ S.u W) : S.steps W' + 1 ≤ S.steps W := by
  have G' := G.trans hw t
  have h1 := total_le_of (f := fun w => cost S.size (S.m W' w) (S.m' W' w) (W'.worker w)) (n := n)
    (fun v hv => cost_le _ (S.le W' v hv).1 (S.le W' v hv).2 ((G'.fits v).mono G'.length_le))
  exact jump h (Nat.succ_le_succ h1)

theorem Good.walks {S : Scheme fs st n} {W W' : World} {w : Nat} (G : S.Good W) (hw : w < n)
    (t : Trans fs st W w W') : S.steps W' ≤ S.steps W := by
  rcases S.pay W w W' hw G.inv t with h | ⟨hu, hp⟩
  · have := G.jumps hw t h; omega
  · have h2 := Nat.mul_le_mul_right (n * ((S.c + 2) * (2 * S.size + 12)) + 1) hu
    have h3 : total (fun w => cost S.size (S.m W' w) (S.m' W' w) (W'.worker w)) n ≤
        total (fun w => cost S.size (S.m W w) (S.m' W w) (W.worker w)) n := by
      by_cases e : W' = W
      · rw [e]
      · apply total_le
        intro v
        by_cases hv : v = w
        · subst hv
          rcases Spends.cost t hp.2 G.length_le with h | h | h
          · exact le_of_lt h
          · simp [cost, h]
          · exact absurd h e
        · simp only [t.other hv]
          exact cost_mono _ (hp.1 v hv).1 (hp.1 v hv).2
    unfold steps
    omega

theorem Good.works {S : Scheme fs st n} {W : World} {w : Nat} (G : S.Good W) (hw : w < n)
    (c : Choice) (hn : ¬ Through W w) : S.steps (act fs st W (.step w c)) + 1 ≤ S.steps W := by
  have t : Trans fs st W w (act fs st W (.step w c)) := act_trans fs st W (.step w c)
  rcases S.pay W w _ hw G.inv t with h | ⟨hu, hp⟩
  · exact G.jumps hw t h
  · have h2 := Nat.mul_le_mul_right (n * ((S.c + 2) * (2 * S.size + 12)) + 1) hu
    have h3 := total_lt (f := fun v => cost S.size (S.m (act fs st W (.step w c)) v)
        (S.m' (act fs st W (.step w c)) v) ((act fs st W (.step w c)).worker v))
      (g := fun w => cost S.size (S.m W w) (S.m' W w) (W.worker w)) hw (fun v hv => by
        simp only [t.other hv]
        exact cost_mono _ (hp.1 v hv).1 (hp.1 v hv).2) (by
        rcases Spends.cost t hp.2 G.length_le with h | h | h
        · exact h
        · simp only [cost, h, if_true]
          exact cost_pos hn
        · exfalso
          unfold Through at hn
          simp only [not_or, Bool.not_eq_false, not_exists] at hn
          refine stepW_moves fs (st w) W w c hn.2.1 hn.2.2 ?_
          have : act fs st W (.step w c) = stepW fs (st w) W w c := by simp [act, hn.1]
          rw [← this, h])
    unfold steps
    omega

/-- The workers take a bounded number of steps. -/
theorem bounded (as : List Act) (hby : OnlyBy (· < n) as) : effort fs st {} as ≤ S.steps {} := by
  have key : ∀ (as : List Act), OnlyBy (· < n) as → ∀ W, S.Good W → effort fs st W as ≤ S.steps W := by
    intro as
    induction as with
    | nil => intro _ W _; simp [effort]
    | cons a as ih =>
      intro hby W G
      have ha : a.who < n := hby a (by simp)
      have t := act_trans fs st W a
      have h1 := ih (fun b hb => hby b (by simp [hb])) _ (G.trans ha t)
      have h2 := G.walks ha t
      unfold effort
      cases a with
      | step w c =>
        simp only
        split
        · omega
        · next hn =>
          have := G.works (w := w) ha c hn
          omega
      | kill w => simp only; omega
      | killCreating w c b => simp only; omega
  exact key as hby {} S.good_init

end Scheme

/-- A worker that is through stays so. -/
theorem Through.act {fs st} {W : World} {w : Nat} (h : Through W w) (a : Act) :
    Through (act fs st W a) w := by
  have t := act_trans fs st W a
  by_cases e : w = a.who
  case neg =>
    unfold Through
    rw [t.other e]
    exact h
  unfold Through at h ⊢
  cases a with
  | step v c =>
    simp only [Act.who] at e
    subst e
    simp only [Run.act]
    split
    · next ha =>
      rcases h with h | ⟨x, h⟩ | ⟨x, h⟩
      · rw [h] at ha; simp at ha
      · simp [stepW, h]
      · simp [stepW, h]
    · exact h
  | kill v =>
    simp only [Act.who] at e
    subst e
    left; simp [Run.act]
  | killCreating v c b =>
    simp only [Act.who] at e
    subst e
    simp only [Run.act]
    split
    · left
      repeat' split
      all_goals simp
    · next ha => left; simpa using ha

theorem effort_append (fs st) (W : World) (as bs : List Act) :
    effort fs st W (as ++ bs) = effort fs st W as + effort fs st (run fs st W as) bs := by
  induction as generalizing W with
  | nil => simp [effort, run]
  | cons a as ih =>
    simp only [List.cons_append, effort, ih, run_cons]
    omega

/-- If the number of steps is bounded, then every endless schedule that is fair gets all workers
through. -/
theorem through_of_bounded {fs st n B} (hB : ∀ as, OnlyBy (· < n) as → effort fs st {} as ≤ B)
    (σ : Nat → Act) (hσ : ∀ i, (σ i).who < n) (hf : Fair n σ) :
    ∃ k, ∀ j ≥ k, ∀ w < n, Through (after fs st σ j) w := by
  have hsucc : ∀ k, after fs st σ (k + 1) = act fs st (after fs st σ k) (σ k) := by
    intro k
    simp [after, List.range_succ, run]
  have stay : ∀ w k j, k ≤ j → Through (after fs st σ k) w → Through (after fs st σ j) w := by
    intro w k j hkj h
    induction j, hkj using Nat.le_induction with
    | base => exact h
    | succ j _ ih => rw [hsucc]; exact ih.act _
  have heff : ∀ k, effort fs st {} ((List.range k).map σ) ≤ B := by
    intro k
    refine hB _ ?_
    intro a ha
    obtain ⟨i, _, rfl⟩ := List.mem_map.mp ha
    exact hσ i
  have one : ∀ w < n, ∃ k, Through (after fs st σ k) w := by
    intro w hw
    by_contra hno
    simp only [not_exists] at hno
    have grow : ∀ b, ∃ k, b ≤ effort fs st {} ((List.range k).map σ) := by
      intro b
      induction b with
      | zero => exact ⟨0, by simp⟩
      | succ b ih =>
        obtain ⟨k, hk⟩ := ih
        obtain ⟨j, hj, c, hc⟩ := hf w hw k
        refine ⟨j + 1, ?_⟩
        obtain ⟨d, rfl⟩ := Nat.exists_eq_add_of_le hj
        have e : (List.range (k + d + 1)).map σ = (List.range k).map σ ++
            ((List.range d).map (fun i => σ (k + i)) ++ [σ (k + d)]) := by
          rw [List.range_succ, List.range_add]
          simp [Function.comp_def]
        have e2 : (List.range (k + d)).map σ = (List.range k).map σ ++
            (List.range d).map (fun i => σ (k + i)) := by
          rw [List.range_add]
          simp [Function.comp_def]
        rw [e, ← List.append_assoc, ← e2, effort_append, hc]
        have hn := hno (k + d)
        rw [show after fs st σ (k + d) = run fs st {} ((List.range (k + d)).map σ) from rfl] at hn
        have h1 : b ≤ effort fs st {} ((List.range (k + d)).map σ) := by
          rw [e2, effort_append]; omega
        simp only [effort, if_neg hn]
        omega
    obtain ⟨k, hk⟩ := grow (B + 1)
    have := heff k
    omega
  clear hσ hf heff
  induction n with
  | zero => exact ⟨0, by simp⟩
  | succ n ih =>
    obtain ⟨k₁, h1⟩ := ih (fun as h => hB as (fun a ha => Nat.lt_succ_of_lt (h a ha)))
      (fun w hw => one w (Nat.lt_succ_of_lt hw))
    obtain ⟨k₂, h2⟩ := one n (Nat.lt_succ_self n)
    refine ⟨max k₁ k₂, fun j hj w hw => ?_⟩
    rcases Nat.lt_succ_iff_lt_or_eq.mp hw with hw | rfl
    · exact h1 j (by omega) w hw
    · exact stay w k₂ j (by omega) h2

end Neps.Run
