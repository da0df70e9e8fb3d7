import Verif.MF.Model

/-!
# Specification vocabulary for the multi-fidelity optimizers

What the theorems of `MF/Props.lean` talk about: histories of asks and reports, and what a
sorting function is. Nothing here refers to how the optimizers compute their answers.
-/

namespace Neps.MF

variable {P F : Type}

/-- The order of `np.argsort` on floats: NaN comes last. -/
def sortLe (a b : PyFloat) : Prop := b = .nan ∨ (a ≠ .nan ∧ PyFloat.le a b = true)

/-- `sort` returns the positions of its argument, each once, in an order that sorts it. Nothing
is said about the order of equal entries. -/
structure Sorts (sort : Argsort) : Prop where
  perm : ∀ xs, (sort xs).Perm (List.range xs.length)
  sorted : ∀ xs, (sort xs).Pairwise (fun i j => ∀ a b, xs[i]? = some a → xs[j]? = some b → sortLe a b)

/-- An optimizer as the worker calls it: the trials of the mapping, in its order, and the outcome
of sampling; the result is a proposal or an exception. -/
abbrev AskFn (P F : Type) := List (Rec P F) → P → Except Err (Proposal P F)

/-- The trial stored for a proposal. -/
def Proposal.toRec (p : Proposal P F) : Rec P F := ⟨p.key, p.params, p.fid, .pending⟩

/-- Store the report of the trial `k`. -/
def report (k : Key) (res : Res) (H : List (Rec P F)) : List (Rec P F) :=
  H.map (fun t => if t.key = k then { t with res := res } else t)

/-- The histories of an optimizer: from no trials, any number of asks, each on the trials stored
so far listed in any order, whose proposal is stored as a new pending trial, and of reports, for
any trial and at any time. `A` are the ask functions the environment may choose from (which
`argsort`, which random bracket). -/
inductive Reach (A : AskFn P F → Prop) : List (Rec P F) → Prop
  | start : Reach A []
  | ask {H H' : List (Rec P F)} {f : AskFn P F} {new : P} {p : Proposal P F} :
      Reach A H → A f → H'.Perm H → f H' new = .ok p → Reach A (H ++ [p.toRec])
  | report {H : List (Rec P F)} (k : Key) (res : Res) :
      Reach A H → res ≠ .pending → Reach A (report k res H)

/-- Histories in which every trial is reported at most once. -/
inductive ReachOnce (A : AskFn P F → Prop) : List (Rec P F) → Prop
  | start : ReachOnce A []
  | ask {H H' : List (Rec P F)} {f : AskFn P F} {new : P} {p : Proposal P F} :
      ReachOnce A H → A f → H'.Perm H → f H' new = .ok p → ReachOnce A (H ++ [p.toRec])
  | report {H : List (Rec P F)} (k : Key) (res : Res) :
      ReachOnce A H → res ≠ .pending → (∀ t ∈ H, t.key = k → t.res = .pending) →
      ReachOnce A (report k res H)

/-- Successive halving with the given settings and bracket. -/
def IsSH (st : Settings) (b : Bracket F) (f : AskFn P F) : Prop :=
  ∃ sort, Sorts sort ∧ f = shAsk st b sort

/-- Hyperband over the brackets `bs 0, ..., bs (nb-1)`. -/
def IsHB (st : Settings) (bs : Nat → Bracket F) (nb : Nat) (f : AskFn P F) : Prop :=
  ∃ sort, Sorts sort ∧ f = hbAsk st bs nb sort

/-- Asynchronous successive halving. -/
def IsASHA (st : Settings) (b : Bracket F) (f : AskFn P F) : Prop :=
  ∃ sort, Sorts sort ∧ f = ashaAsk st b sort

/-- Asynchronous hyperband; the bracket of each ask is drawn at random. -/
def IsAHB (st : Settings) (bs : Nat → Bracket F) (nb : Nat) (f : AskFn P F) : Prop :=
  ∃ sort cur, Sorts sort ∧ cur < nb ∧ f = ahbAsk st bs sort cur

/-- The bracket assigns to each of its rungs the budget that `budget` says. -/
def Agrees (b : Bracket F) (budget : Nat → F) : Prop :=
  b.minR ≤ b.maxR ∧ ∀ r, b.minR ≤ r → r ≤ b.maxR → b.budget r = budget r

/-- Any of the four optimizers, over brackets that agree on the budget of a rung (`budget`). -/
inductive IsMF (budget : Nat → F) : (AskFn P F → Prop) → Prop
  | sh (st : Settings) (b : Bracket F) : Agrees b budget → IsMF budget (IsSH st b)
  | hb (st : Settings) (bs : Nat → Bracket F) (nb : Nat) :
      (∀ i, i < nb → Agrees (bs i) budget) → 0 < nb → IsMF budget (IsHB st bs nb)
  | asha (st : Settings) (b : Bracket F) : Agrees b budget → IsMF budget (IsASHA st b)
  | ahb (st : Settings) (bs : Nat → Bracket F) (nb : Nat) :
      (∀ i, i < nb → Agrees (bs i) budget) → 0 < nb → IsMF budget (IsAHB st bs nb)

/-- The shape of a bracket that `MF/Geometry.lean` establishes for `bracketOf`: every rung has
`eta` times the capacity of the next one, the last one is not empty. -/
structure Good (b : Bracket F) : Prop where
  le : b.minR ≤ b.maxR
  eta : 2 ≤ b.eta
  next : ∀ r, b.minR ≤ r → r < b.maxR → b.cap r = b.eta * b.cap (r + 1)
  top : 0 < b.cap b.maxR

/-- How many configurations a bracket starts with. -/
def Bracket.size (b : Bracket F) : Nat := b.cap b.minR

/-- Hyperband assigns configurations to brackets in the order of their numbers: the `k`-th
bracket, which is `bs (k % nb)`, gets the numbers from `sliceStart k` on. -/
def sliceStart (bs : Nat → Bracket F) (nb off : Nat) : Nat → Nat
  | 0 => off
  | k + 1 => sliceStart bs nb off k + (bs (k % nb)).size

/-- The number of the first configuration that takes part in brackets. -/
def Settings.offset (st : Settings) : Nat := if st.defaultAtTarget && st.defaultFirst then 1 else 0

/-- How many of the configurations `start, ..., start + n - 1` have a trial at rung `r`. -/
def evaluatedAt (H : List (Rec P F)) (start n r : Nat) : Nat :=
  (List.range' start n).countP (fun c => decide ((⟨c, r⟩ : Key) ∈ H.map (·.key)))

/-- The loss that counts for a finished trial: the reported one or, for a failed evaluation, the
value configured for failures. A failed evaluation that is to be ignored has none. -/
def lossOf (st : Settings) (t : Rec P F) : Option PyFloat :=
  match t.res with
  | .pending => none
  | .loss x => some x
  | .error => if st.ignoreErrors then none else st.lossOnError

/-- The configuration of the trial `t` has not been evaluated at the next rung. -/
def Unpromoted (H : List (Rec P F)) (t : Rec P F) : Prop :=
  (⟨t.key.cfg, t.key.rung + 1⟩ : Key) ∉ H.map (·.key)

/-- The trial `t` belongs to the bracket that starts with configuration `start`. -/
def InSlice (start n : Nat) (t : Rec P F) : Prop := start ≤ t.key.cfg ∧ t.key.cfg < start + n

/-- The trials that compete for promotion from rung `r` in the asynchronous optimizers: finished
trials at that rung, with a loss that is a number, whose configuration is not at a higher rung;
a default configuration evaluated first at the target fidelity does not compete. -/
def Candidate (st : Settings) (H : List (Rec P F)) (r : Nat) (t : Rec P F) : Prop :=
  t.key.rung = r ∧ (∀ t' ∈ H, t'.key.cfg = t.key.cfg → t'.key.rung ≤ r) ∧ t.res ≠ .pending ∧
    lossOf st t ≠ some .nan ∧ st.offset ≤ t.key.cfg

instance (st : Settings) (H : List (Rec P F)) (r : Nat) (t : Rec P F) :
    Decidable (Candidate st H r t) := by
  unfold Candidate; infer_instance

end Neps.MF
