import Verif.Basic.PyFloat
import Mathlib.Logic.Function.Basic

/-!
# Successive halving and hyperband

Model of `neps/optimizers/multi_fidelity/successive_halving.py`, `promotion_policy.py` and
`hyperband.py`: from the mapping of all trials to the next proposal.

Simplifications, used throughout this file:
* a trial id `"<config>_<rung>"` is the pair of its two numbers (`Verif.MF.Ids` shows that the
  textual form is faithful);
* a configuration is its fidelity (type `F`) and the rest of its hyperparameters (type `P`);
  sampling a configuration is an arbitrary choice of `P` made by the environment;
* `np.argsort` is an arbitrary function; theorems assume only that it sorts (`MF/Spec.lean`);
* no model-based search (`_fit_models` is the empty method of `successive_halving.py:315-318`),
  no `rung_histories` (used by PriorBand only).
-/

namespace Neps.MF

/-- A trial id: number of the configuration and rung, `successive_halving.py:216-220`. -/
structure Key where
  cfg : Nat
  rung : Nat
deriving DecidableEq, Repr

/-- What the report of a trial says: none yet, failed or crashed, succeeded with a loss
(`neps/state/trial.py`, `into_config_result`). -/
inductive Res
  | pending
  | error
  | loss (x : PyFloat)
deriving DecidableEq, Repr

/-- One stored trial as the optimizer sees it. -/
structure Rec (P F : Type) where
  key : Key
  params : P
  fid : F
  res : Res
deriving DecidableEq, Repr

/-- The entry of the column `perf`: a float or the string `"error"`. -/
inductive Perf
  | val (x : PyFloat)
  | error
deriving DecidableEq, Repr

/-- Constructor arguments that the modelled methods read (`successive_halving.py:50-107`,
`neps/optimizers/base_optimizer.py:38-60`). -/
structure Settings where
  ignoreErrors : Bool := false
  lossOnError : Option PyFloat := none
  usePriors : Bool := false
  defaultFirst : Bool := false
  defaultAtTarget : Bool := false
deriving Repr

/-- Exceptions an `ask` can raise. -/
inductive Err
  | valueError   -- a failed trial and neither `ignore_errors` nor `loss_value_on_error`
  | typeError    -- `np.isnan` or `np.argsort` on strings, or a list indexed by an array
  | keyError     -- a rung that is not in the rung map
  | indexError   -- `iloc` out of range
deriving DecidableEq, Repr

/-- `BaseOptimizer.get_loss` / `_get_loss`, `neps/optimizers/base_optimizer.py:17-42, 127-142`, for a
trial that has a report. (`pending` does not occur there; it is given the value NaN that
`_handle_pending_evaluations` writes.) -/
def getLoss (st : Settings) : Res → Except Err Perf
  | .pending => .ok (.val .nan)
  | .loss x => .ok (.val x)
  | .error =>
    if st.ignoreErrors then .ok .error
    else match st.lossOnError with
      | some x => .ok (.val x)
      | none => .error .valueError

/-- A row of `observed_configs` (columns `config`, `rung`, `perf`; the index is `cfg`). -/
structure Row (P F : Type) where
  cfg : Nat
  params : P
  fid : F
  rung : Nat
  perf : Perf
deriving DecidableEq, Repr

/-- The data frame `observed_configs`, `successive_halving.py:150`: rows by configuration number.
It is kept sorted by index (`sort_index`), so it is a partial function listed in increasing
order; `bound` is one more than the largest index. -/
structure Table (P F : Type) where
  bound : Nat
  row : Nat → Option (Row P F)

variable {P F : Type}

/-- `pd.DataFrame([], columns=...)`. -/
def Table.empty : Table P F := ⟨0, fun _ => none⟩

/-- The rows in index order. -/
def Table.rows (T : Table P F) : List (Row P F) := (List.range T.bound).filterMap T.row

/-- Write the row with index `r.cfg`. -/
def Table.set (T : Table P F) (r : Row P F) : Table P F :=
  ⟨max T.bound (r.cfg + 1), Function.update T.row r.cfg (some r)⟩

/-- One pass of the loop of `_load_previous_observations`, `successive_halving.py:226-253`. -/
def loadOne (T : Table P F) (t : Rec P F) (perf : Perf) : Table P F :=
  match T.row t.key.cfg with
  | some old =>
    if old.rung < t.key.rung then T.set ⟨t.key.cfg, t.params, t.fid, t.key.rung, perf⟩ else T
  | none => T.set ⟨t.key.cfg, t.params, t.fid, t.key.rung, perf⟩

/-- One pass of the loop of `_handle_pending_evaluations`, `successive_halving.py:260-273`. -/
def pendOne (T : Table P F) (t : Rec P F) : Table P F :=
  match T.row t.key.cfg with
  | none => T.set ⟨t.key.cfg, t.params, t.fid, t.key.rung, .val .nan⟩
  | some old => T.set { old with rung := t.key.rung, perf := .val .nan }

/-- `trial.report is None`. -/
def Rec.isPending (t : Rec P F) : Bool := t.res == .pending

/-- `_load_previous_observations`, `successive_halving.py:222-253`. -/
def load (st : Settings) : Table P F → List (Rec P F) → Except Err (Table P F)
  | T, [] => .ok T
  | T, t :: ts =>
    match getLoss st t.res with
    | .error e => .error e
    | .ok perf => load st (loadOne T t perf) ts

/-- First half of `ask`, `successive_halving.py:328-352`: completed trials first, then pending
ones, each in the order of the mapping. -/
def observe (st : Settings) (ts : List (Rec P F)) : Except Err (Table P F) :=
  match load st .empty (ts.filter (!·.isPending)) with
  | .error e => .error e
  | .ok T => .ok ((ts.filter (·.isPending)).foldl pendOne T)

/-- `np.isnan` of one entry of `perf`. -/
def Perf.isNan : Perf → Bool
  | .val x => x.isNan
  | .error => false

/-- `DataFrame.dropna`, used at `successive_halving.py:284`. -/
def dropna (rows : List (Row P F)) : List (Row P F) := rows.filter (!·.perf.isNan)

/-- `_get_rungs_state`, `successive_halving.py:288-294`: the default configuration, evaluated at
the target fidelity, takes no part in the bracket. -/
def dropDefault (st : Settings) (rows : List (Row P F)) : List (Row P F) :=
  if st.defaultFirst && st.defaultAtTarget then rows.filter (fun r => r.cfg != 0) else rows

/-- `self.rung_members[rung]` and `rung_members_performance[rung]`,
`successive_halving.py:298-301`, as one list of rows. -/
def atRung (rows : List (Row P F)) (rung : Nat) : List (Row P F) :=
  rows.filter (fun r => r.rung == rung)

/-- `l[:k]` in Python: a negative `k` counts from the end. -/
def pyTake {A : Type} (k : Int) (l : List A) : List A :=
  if 0 ≤ k then l.take k.toNat else l.take (l.length - (-k).toNat)

/-- `a[idx]` for an array `a` and an array of positions `idx`. -/
def pick {A : Type} (l : List A) (idx : List Nat) : List A := idx.filterMap (l[·]?)

/-- An entry of a column of floats. -/
def Row.float (r : Row P F) : PyFloat :=
  match r.perf with
  | .val x => x
  | .error => .nan

/-- The floats of a column of floats. -/
def floats (rows : List (Row P F)) : List PyFloat := rows.map Row.float

/-- Does the column `perf` hold a string? Then its dtype is `object`. -/
def hasError (rows : List (Row P F)) : Bool := rows.any (fun r => r.perf == .error)

/-- One bracket: constants computed in `SuccessiveHalvingBase.__init__`
(`successive_halving.py:121-140`). `cap` is `config_map`, `budget` is `rung_map`, both with the
rungs `minR..maxR` as keys. -/
structure Bracket (F : Type) where
  minR : Nat
  maxR : Nat
  eta : Nat
  cap : Nat → Nat
  budget : Nat → F

/-- The rungs of a bracket from the highest to the lowest. -/
def Bracket.rungsDesc (b : Bracket F) : List Nat :=
  (List.range' b.minR (b.maxR + 1 - b.minR)).reverse

/-- A function with the type of `np.argsort`. -/
abbrev Argsort := List PyFloat → List Nat

/-- The loop of `SyncPromotionPolicy.retrieve_promotions`, `promotion_policy.py:64-86`, over the
rungs from the highest; `acc` are the entries of `rung_promotions` set so far, `total` is
`total_rung_evals`. `np.isnan` raises when the column holds strings (`obj`). Indexing `[]`, the
placeholder of a rung without members (`successive_halving.py:275-278`), by an array raises. -/
def syncGo (b : Bracket F) (sort : Argsort) (obj : Bool) (rows : List (Row P F)) :
    List Nat → Nat → List (Nat × List Nat) → Except Err (List (Nat × List Nat))
  | [], _, acc => .ok acc
  | r :: rs, total, acc =>
    let here := atRung rows r
    let total := total + here.length
    if b.cap r ≤ total then
      if obj && !here.isEmpty then .error .typeError
      else if here.any (·.perf.isNan) then .ok acc
      else if r = b.maxR then syncGo b sort obj rows rs total acc
      else if here.isEmpty then .error .typeError
      else
        let topK : Int := (b.cap r / b.eta : Nat) - ((b.cap r : Int) - here.length)
        let sel := pick here (pyTake topK (sort (floats here)))
        syncGo b sort obj rows rs total ((r, sel.map (·.cfg)) :: acc)
    else syncGo b sort obj rows rs total acc

/-- Look up a rung in `rung_promotions` (missing entries are `[]`,
`promotion_policy.py:62`). -/
def promosAt (ps : List (Nat × List Nat)) (r : Nat) : List Nat := (ps.lookup r).getD []

/-- `SyncPromotionPolicy.retrieve_promotions`, `promotion_policy.py:58-86`. -/
def syncPromotions (b : Bracket F) (sort : Argsort) (obj : Bool) (rows : List (Row P F)) :
    Except Err (List (Nat × List Nat)) :=
  syncGo b sort obj rows b.rungsDesc 0 []

/-- The loop of `AsyncPromotionPolicy.retrieve_promotions`, `promotion_policy.py:98-111`.
`firstR` is the smallest key of `rung_members`; a smaller rung without members raises `KeyError`.
`np.argsort` raises on a mixture of strings and floats. -/
def asyncGo (eta firstR : Nat) (sort : Argsort) (rows : List (Row P F)) :
    List Nat → Except Err (List (Nat × List Nat))
  | [] => .ok []
  | r :: rs =>
    let here := atRung rows r
    if r < firstR && here.isEmpty then .error .keyError
    else if hasError here && here.any (fun x => x.perf != .error) then .error .typeError
    else match asyncGo eta firstR sort rows rs with
      | .error e => .error e
      | .ok rest =>
        .ok ((r, (pyTake (here.length / eta : Nat) (pick here (sort (floats here)))).map (·.cfg))
          :: rest)

/-- `AsyncPromotionPolicy.retrieve_promotions`, `promotion_policy.py:98-111`. -/
def asyncPromotions (b : Bracket F) (firstR : Nat) (sort : Argsort) (rows : List (Row P F)) :
    Except Err (List (Nat × List Nat)) :=
  asyncGo b.eta firstR sort rows (List.range b.maxR)

/-- A proposal: `SampledConfig`, with the previous id. -/
structure Proposal (P F : Type) where
  key : Key
  params : P
  fid : F
  prev : Option Key
deriving DecidableEq, Repr

/-- `_generate_new_config_id`, `successive_halving.py:385-390`. -/
def newId (T : Table P F) : Nat :=
  if T.rows.length = 0 then 0 else T.bound

/-- `is_promotable`, `successive_halving.py:392-402`. -/
def isPromotable (b : Bracket F) (ps : List (Nat × List Nat)) : Option Nat :=
  (List.range' b.minR (b.maxR - b.minR)).reverse.find? (fun r => !(promosAt ps r).isEmpty)

/-- `get_config_and_ids`, `successive_halving.py:404-454`. `new` are the hyperparameters that
`sample_new_config`, `pipeline_space.sample` or `sample_default_configuration` would return.
`iloc` is access by position. -/
def getConfigAndIds (st : Settings) (b : Bracket F) (T : Table P F) (ps : List (Nat × List Nat))
    (new : P) : Except Err (Proposal P F) :=
  match isPromotable b ps with
  | some r =>
    match (promosAt ps r).head? with
    | none => .error .indexError
    | some pos =>
      match T.rows[pos]? with
      | none => .error .indexError
      | some row => .ok ⟨⟨row.cfg, r + 1⟩, row.params, b.budget (r + 1), some ⟨row.cfg, r⟩⟩
  | none =>
    let rung := if st.usePriors && st.defaultFirst && T.rows.isEmpty && st.defaultAtTarget
      then b.maxR else b.minR
    .ok ⟨⟨newId T, rung⟩, new, b.budget rung, none⟩

/-- `sum(config_history == rung)`, `successive_halving.py:491`. -/
def countAt (rungs : List Nat) (r : Nat) : Nat := rungs.count r

/-- `_calc_budget_used_in_bracket`, `successive_halving.py:487-494`. -/
def budgetUsed (b : Bracket F) (rungs : List Nat) : Nat :=
  ((List.range' b.minR (b.maxR + 1 - b.minR)).map (fun r =>
    countAt rungs r * (List.range' b.minR (r + 1 - b.minR)).sum)).sum

/-- `_get_rung_trace`, `successive_halving.py:167-173`. -/
def rungTrace (b : Bracket F) : List Nat :=
  (List.range' b.minR (b.maxR + 1 - b.minR)).flatMap (fun r => List.replicate (b.cap r) r)

/-- `promotion_count`, `successive_halving.py:530-532`. -/
def promotionCount (ps : List (Nat × List Nat)) : Nat := (ps.map (·.2.length)).sum

/-- The `while` loop of `SuccessiveHalving.clear_old_brackets`, `successive_halving.py:517-546`.
`rest` are the rows from `start` on. The result are the promotions of the bracket that was
chosen, as computed by the `_handle_promotions` that follows in `ask`. The loop of the code does
not end if the lowest rung has capacity 0; `MF/Geometry.lean` shows that it never has. -/
def shLoop (st : Settings) (b : Bracket F) (sort : Argsort) (obj : Bool)
    (rest : List (Row P F)) : Except Err (List (Nat × List Nat)) :=
  if _h : 0 < b.cap b.minR ∧ b.cap b.minR ≤ rest.length then
    let slice := rest.take (b.cap b.minR)
    if budgetUsed b (slice.map (·.rung)) < (rungTrace b).sum then
      match syncPromotions b sort obj (dropDefault st slice) with
      | .error e => .error e
      | .ok ps =>
        if promotionCount ps ≠ 0 then .ok ps
        else shLoop st b sort obj (rest.drop (b.cap b.minR))
    else shLoop st b sort obj (rest.drop (b.cap b.minR))
  else syncPromotions b sort obj (dropDefault st (rest.take (b.cap b.minR)))
termination_by rest.length
decreasing_by all_goals (simp only [List.length_drop]; omega)

/-- The rows that take part in brackets: `start` is 1 when the default configuration is
evaluated first at the target fidelity (`successive_halving.py:514-516`,
`hyperband.py:205-207`). -/
def bracketRows (st : Settings) (rows : List (Row P F)) : List (Row P F) :=
  if st.defaultAtTarget && st.defaultFirst then rows.drop 1 else rows

/-- `SuccessiveHalving.ask`: `SuccessiveHalvingBase.ask` (`successive_halving.py:321-364`) with
`clear_old_brackets` of `successive_halving.py:496-546`. -/
def shAsk (st : Settings) (b : Bracket F) (sort : Argsort) (ts : List (Rec P F)) (new : P) :
    Except Err (Proposal P F) :=
  match observe st ts with
  | .error e => .error e
  | .ok T =>
    match shLoop st b sort (hasError T.rows) (bracketRows st T.rows) with
    | .error e => .error e
    | .ok ps => getConfigAndIds st b T ps new

/-- The `while` loop of `Hyperband.clear_old_brackets`, `hyperband.py:213-256`, with the number of
the current bracket. `bs` are the brackets `sh_brackets[0..nb-1]`. -/
def hbLoop (st : Settings) (bs : Nat → Bracket F) (nb : Nat) (sort : Argsort) (obj : Bool)
    (cur : Nat) (rest : List (Row P F)) : Except Err (Nat × List (Nat × List Nat)) :=
  if _h : 0 < (bs cur).cap (bs cur).minR ∧ (bs cur).cap (bs cur).minR ≤ rest.length then
    let slice := rest.take ((bs cur).cap (bs cur).minR)
    if budgetUsed (bs cur) (slice.map (·.rung)) < (rungTrace (bs cur)).sum then
      match syncPromotions (bs cur) sort obj (dropDefault st slice) with
      | .error e => .error e
      | .ok ps =>
        if promotionCount ps ≠ 0 then .ok (cur, ps)
        else hbLoop st bs nb sort obj ((cur + 1) % nb) (rest.drop ((bs cur).cap (bs cur).minR))
    else hbLoop st bs nb sort obj ((cur + 1) % nb) (rest.drop ((bs cur).cap (bs cur).minR))
  else
    match syncPromotions (bs cur) sort obj (dropDefault st (rest.take ((bs cur).cap (bs cur).minR))) with
    | .error e => .error e
    | .ok ps => .ok (cur, ps)
termination_by rest.length
decreasing_by all_goals (simp only [List.length_drop]; omega)

/-- `Hyperband.ask`: `HyperbandBase.ask` (`hyperband.py:127-173`) with `clear_old_brackets` and
`get_config_and_ids` of `hyperband.py:185-267`. -/
def hbAsk (st : Settings) (bs : Nat → Bracket F) (nb : Nat) (sort : Argsort)
    (ts : List (Rec P F)) (new : P) : Except Err (Proposal P F) :=
  match observe st ts with
  | .error e => .error e
  | .ok T =>
    match hbLoop st bs nb sort (hasError T.rows) 0 (bracketRows st T.rows) with
    | .error e => .error e
    | .ok (cur, ps) => getConfigAndIds st (bs cur) T ps new

/-- `AsynchronousSuccessiveHalving.ask`: `successive_halving.py:321-364` with
`AsyncPromotionPolicy` and the empty `clear_old_brackets` of `successive_halving.py:312-313`. -/
def ashaAsk (st : Settings) (b : Bracket F) (sort : Argsort) (ts : List (Rec P F)) (new : P) :
    Except Err (Proposal P F) :=
  match observe st ts with
  | .error e => .error e
  | .ok T =>
    match asyncPromotions b b.minR sort (dropDefault st (dropna T.rows)) with
    | .error e => .error e
    | .ok ps => getConfigAndIds st b T ps new

/-- `AsynchronousHyperband.ask`: `hyperband.py:127-173` with `_update_sh_bracket_state`
(`hyperband.py:405-419`) and the bracket `cur` drawn by `_get_bracket_to_run`
(`hyperband.py:421-437`). The rung members are those of the whole run, with all rungs as keys. -/
def ahbAsk (st : Settings) (bs : Nat → Bracket F) (sort : Argsort) (cur : Nat)
    (ts : List (Rec P F)) (new : P) : Except Err (Proposal P F) :=
  match observe st ts with
  | .error e => .error e
  | .ok T =>
    match asyncPromotions (bs cur) 0 sort (dropDefault st (dropna T.rows)) with
    | .error e => .error e
    | .ok ps => getConfigAndIds st (bs cur) T ps new

end Neps.MF
