import Verif.Run.LineageModel

/-!
# Checkpoints

Model of `save_checkpoint`, `load_checkpoint` and `load_lightning_checkpoint`
(`neps/utils/common.py:20-140`).

Simplifications, for the whole file: a directory is a text that names it, and the directories of
checkpoints exist; the name of a checkpoint is a single component of a path, that is, it is not empty,
not `"."` and holds no slash. What is stored under a key is a value of some type `V`; `plain` says
which of them `torch.load(..., weights_only=True)` accepts.
-/

namespace Neps.Run

variable {V : Type}

/-- `Path.suffix` of CPython: from the last dot on, unless the name begins or ends there; the part in
front of it is the first component of the pair. Used by `with_suffix` (`neps/utils/common.py:46,
83`). -/
def splitSuffix (name : List Char) : List Char × List Char :=
  match name.reverse.dropWhile (· ≠ '.') with
  | '.' :: (s :: stem) =>
    match name.reverse.takeWhile (· ≠ '.') with
    | [] => (name, [])
    | e => ((s :: stem).reverse, '.' :: e.reverse)
  | _ => (name, [])

/-- `(directory / checkpoint_name).with_suffix(".pth")`, `neps/utils/common.py:46, 83`: the name of the
file. -/
def checkpointFile (name : List Char) : List Char := (splitSuffix name).1 ++ ".pth".toList

/-- The checkpoint files: directory, name, contents. -/
abbrev Files (V : Type) := String → List Char → Option (List (String × V))

/-- What `save_checkpoint` is given (`neps/utils/common.py:62-68`): the states of the model and the
optimizer, if they are given, and the other values. -/
structure ToSave (V : Type) where
  name : List Char
  values : Option (List (String × V)) := none
  model : Option V := none
  optimizer : Option V := none
deriving DecidableEq

/-- `saved_dict`, `neps/utils/common.py:85-94`. -/
def ToSave.dict (a : ToSave V) : List (String × V) :=
  let d : List (String × V) := []
  let d := match a.model with
    | some m => Dict.set d "model_state_dict" m
    | none => d
  let d := match a.optimizer with
    | some o => Dict.set d "optimizer_state_dict" o
    | none => d
  match a.values with
  | some vs => vs.foldl (fun d p => Dict.set d p.1 p.2) d
  | none => d

/-- `torch.save(saved_dict, checkpoint_path)`, `neps/utils/common.py:82-96`. -/
def saveIn (fs : Files V) (dir : String) (a : ToSave V) : Files V := fun d f =>
  if d = dir ∧ f = checkpointFile a.name then some a.dict else fs d f

/-- Ways in which loading ends without a result: no trial is being evaluated (`RuntimeError`), the
file holds something `weights_only` does not allow, there is no file or more than one. -/
inductive CkErr
  | noTrial | unpickling | fileNotFound | tooMany
deriving DecidableEq, Repr

/-- What `load_checkpoint` returns, and what it puts into the model and the optimizer it is given
(nothing is put into them if they are `none`). -/
structure Loaded (V : Type) where
  checkpoint : List (String × V)
  model : Option V
  optimizer : Option V
deriving DecidableEq

/-- `load_checkpoint` with a directory, `neps/utils/common.py:45-60`; `model` and `optimizer` say
whether they are given. -/
def loadFrom (plain : V → Bool) (fs : Files V) (dir : String) (name : List Char)
    (model optimizer : Bool) : Except CkErr (Option (Loaded V)) :=
  match fs dir (checkpointFile name) with
  | none => .ok none
  | some d =>
    if d.all (fun p => plain p.2) then
      .ok (some ⟨d, if model then Dict.get d "model_state_dict" else none,
        if optimizer then Dict.get d "optimizer_state_dict" else none⟩)
    else .error .unpickling

/-- `load_checkpoint` without a directory, called while worker `w` of the process works,
`neps/utils/common.py:38-43`. -/
def loadCheckpoint (plain : V → Bool) (W : World) (fs : Files V) (w : Nat) (name : List Char)
    (model optimizer : Bool) : Except CkErr (Option (Loaded V)) :=
  match (W.worker w).pc with
  | .eval _ h =>
    match h.cur.metadata.previousTrialLocation with
    | none => .ok none
    | some dir => loadFrom plain fs dir name model optimizer
  | _ => .error .noTrial

/-- `save_checkpoint` without a directory, `neps/utils/common.py:78-80`. If no trial is being
evaluated it raises and writes nothing. -/
def saveCheckpoint (W : World) (fs : Files V) (w : Nat) (a : ToSave V) : Files V :=
  match (W.worker w).pc with
  | .eval _ h => saveIn fs h.cur.metadata.location a
  | _ => fs

/-- A run in which the workers take steps and, now and then, one of them saves a checkpoint. -/
def ckRun (fs : String → Option PyFloat) (st : Nat → Settings) :
    World → Files V → List (List Act × Nat × ToSave V) → World × Files V
  | W, files, [] => (W, files)
  | W, files, (as, w, a) :: evs =>
    let W' := run fs st W as
    ckRun fs st W' (saveCheckpoint W' files w a) evs

/-- `load_lightning_checkpoint`, `neps/utils/common.py:99-140`: `previous` is the given previous
directory, `prevOfTrial` the one of the trial that is being evaluated, `files` are the files of
`checkpoint_dir` with their contents, in the order of `glob`. -/
def loadLightning {C : Type} (previous prevOfTrial : Option String) (files : List (List Char × C)) :
    Except CkErr (Option (List Char × C)) :=
  match (match previous with
    | some p => some p
    | none => prevOfTrial) with
  | none => .ok none
  | some _ =>
    match files.filter (fun f => ".ckpt".toList.isSuffixOf f.1) with
    | [] => .error .fileNotFound
    | [f] => .ok (some f)
    | _ => .error .tooMany

/-! ## Specification -/

/-- `s` is what is left of a name without its extension: `n` is `s.e` where `s` and `e` are not empty
and `e` holds no dot, or there is no such extension and `s` is `n`. -/
def Stem (n s : List Char) : Prop :=
  (∃ e, n = s ++ '.' :: e ∧ s ≠ [] ∧ e ≠ [] ∧ '.' ∉ e) ∨
  (s = n ∧ ¬ ∃ s' e, n = s' ++ '.' :: e ∧ s' ≠ [] ∧ e ≠ [] ∧ '.' ∉ e)

/-- Two names that differ at most in their extension. -/
def SameStem (n n' : List Char) : Prop := ∃ s, Stem n s ∧ Stem n' s

/-- `e` is the last element of `l` that satisfies `p`. -/
def IsLast {E : Type} (l : List E) (p : E → Prop) (e : E) : Prop :=
  ∃ l₁ l₂, l = l₁ ++ e :: l₂ ∧ p e ∧ ∀ x ∈ l₂, ¬ p x

/-- Which trial saved what, along a run. -/
def ckLog (fs : String → Option PyFloat) (st : Nat → Settings) :
    World → List (List Act × Nat × ToSave V) → List (String × ToSave V)
  | _, [] => []
  | W, (as, w, a) :: evs =>
    let W' := run fs st W as
    (match (W'.worker w).pc with
      | .eval id _ => [(id, a)]
      | _ => []) ++ ckLog fs st W' evs

/-- The checkpoint that is loaded is what was saved: the given values under their keys; and otherwise
the states of the model and of the optimizer. -/
structure Restores (a : ToSave V) (model optimizer : Bool) (l : Loaded V) : Prop where
  value : ∀ vs k v, a.values = some vs → Dict.get vs k = some v → Dict.get l.checkpoint k = some v
  others : ∀ k, (∀ vs, a.values = some vs → Dict.get vs k = none) → k ≠ "model_state_dict" →
    k ≠ "optimizer_state_dict" → Dict.get l.checkpoint k = none
  model : model = true → (∀ vs, a.values = some vs → Dict.get vs "model_state_dict" = none) →
    l.model = a.model
  optimizer : optimizer = true →
    (∀ vs, a.values = some vs → Dict.get vs "optimizer_state_dict" = none) → l.optimizer = a.optimizer

end Neps.Run
