import Verif.Basic.PyFloat

/-!
# Python values

The values that flow between user code, YAML files and NePS. Dictionaries are association lists
in insertion order.
-/

namespace Neps

/-- A Python value. `obj` stands for any other object (identified by a tag): it is neither a
number, a string, a list nor a mapping, and `float()` of it raises `TypeError`. -/
inductive PyVal
  | none
  | bool (b : Bool)
  | int (i : Int)
  | float (x : PyFloat)
  | str (s : String)
  | list (l : List PyVal)
  | dict (d : List (String × PyVal))
  | obj (tag : Nat)
deriving Repr

/-- Kinds of Python exceptions raised by the modelled code. -/
inductive PyErr
  | keyError | valueError | typeError | attributeError
deriving DecidableEq, Repr

namespace PyVal

mutual
/-- Equality of Python values is decidable (used only to evaluate examples). -/
def decEq : (a b : PyVal) → Decidable (a = b)
  | .none, .none => isTrue rfl
  | .bool a, .bool b => if h : a = b then isTrue (by rw [h]) else isFalse (by simpa using h)
  | .int a, .int b => if h : a = b then isTrue (by rw [h]) else isFalse (by simpa using h)
  | .float a, .float b => if h : a = b then isTrue (by rw [h]) else isFalse (by simpa using h)
  | .str a, .str b => if h : a = b then isTrue (by rw [h]) else isFalse (by simpa using h)
  | .obj a, .obj b => if h : a = b then isTrue (by rw [h]) else isFalse (by simpa using h)
  | .list a, .list b =>
    match decEqList a b with
    | isTrue h => isTrue (by rw [h])
    | isFalse h => isFalse (by simpa using h)
  | .dict a, .dict b =>
    match decEqDict a b with
    | isTrue h => isTrue (by rw [h])
    | isFalse h => isFalse (by simpa using h)
  | .none, .bool _ | .none, .int _ | .none, .float _ | .none, .str _ | .none, .list _
  | .none, .dict _ | .none, .obj _
  | .bool _, .none | .bool _, .int _ | .bool _, .float _ | .bool _, .str _ | .bool _, .list _
  | .bool _, .dict _ | .bool _, .obj _
  | .int _, .none | .int _, .bool _ | .int _, .float _ | .int _, .str _ | .int _, .list _
  | .int _, .dict _ | .int _, .obj _
  | .float _, .none | .float _, .bool _ | .float _, .int _ | .float _, .str _ | .float _, .list _
  | .float _, .dict _ | .float _, .obj _
  | .str _, .none | .str _, .bool _ | .str _, .int _ | .str _, .float _ | .str _, .list _
  | .str _, .dict _ | .str _, .obj _
  | .list _, .none | .list _, .bool _ | .list _, .int _ | .list _, .float _ | .list _, .str _
  | .list _, .dict _ | .list _, .obj _
  | .dict _, .none | .dict _, .bool _ | .dict _, .int _ | .dict _, .float _ | .dict _, .str _
  | .dict _, .list _ | .dict _, .obj _
  | .obj _, .none | .obj _, .bool _ | .obj _, .int _ | .obj _, .float _ | .obj _, .str _
  | .obj _, .list _ | .obj _, .dict _ => isFalse (by simp)
/-- Lists. -/
def decEqList : (a b : List PyVal) → Decidable (a = b)
  | [], [] => isTrue rfl
  | [], _ :: _ => isFalse (by simp)
  | _ :: _, [] => isFalse (by simp)
  | a :: as, b :: bs =>
    match decEq a b, decEqList as bs with
    | isTrue h, isTrue h' => isTrue (by rw [h, h'])
    | isFalse h, _ => isFalse (by simp [h])
    | _, isFalse h => isFalse (by simp [h])
/-- Dictionaries. -/
def decEqDict : (a b : List (String × PyVal)) → Decidable (a = b)
  | [], [] => isTrue rfl
  | [], _ :: _ => isFalse (by simp)
  | _ :: _, [] => isFalse (by simp)
  | (k, a) :: as, (l, b) :: bs =>
    match (inferInstance : Decidable (k = l)), decEq a b, decEqDict as bs with
    | isTrue hk, isTrue h, isTrue h' => isTrue (by rw [hk, h, h'])
    | isFalse hk, _, _ => isFalse (by simp [hk])
    | _, isFalse h, _ => isFalse (by simp [h])
    | _, _, isFalse h => isFalse (by simp [h])
end

instance : DecidableEq PyVal := decEq

/-- `float(v)`. `fs` is what `float` does on strings (`none` = `ValueError`); it is left
arbitrary. -/
def toFloat (fs : String → Option PyFloat) : PyVal → Except PyErr PyFloat
  | .float x => .ok x
  | .int i => .ok (.num i)
  | .bool b => .ok (.num (if b then 1 else 0))
  | .str s =>
    match fs s with
    | some x => .ok x
    | Option.none => .error .valueError
  | .none | .list _ | .dict _ | .obj _ => .error .typeError

/-- The list a value iterates over; `TypeError` if it is not iterable. -/
def iter : PyVal → Except PyErr (List PyVal)
  | .list l => .ok l
  | .str s => .ok (s.toList.map (fun c => .str c.toString))
  | .dict d => .ok (d.map (fun p => .str p.1))
  | .none | .bool _ | .int _ | .float _ | .obj _ => .error .typeError

end PyVal

/-! ### Dictionaries -/

namespace Dict

variable {V : Type}

/-- `d.get(k)`. -/
def get (d : List (String × V)) (k : String) : Option V :=
  match d with
  | [] => Option.none
  | (k', v) :: rest => if k' = k then some v else get rest k

/-- The dictionary without key `k` (what remains after `d.pop(k)`). -/
def erase (d : List (String × V)) (k : String) : List (String × V) :=
  d.filter (fun p => p.1 ≠ k)

/-- `k in d`. -/
def has (d : List (String × V)) (k : String) : Bool := (get d k).isSome

/-- `d[k] = v`: replace in place, or append. -/
def set (d : List (String × V)) (k : String) (v : V) : List (String × V) :=
  match d with
  | [] => [(k, v)]
  | (k', v') :: rest => if k' = k then (k, v) :: rest else (k', v') :: set rest k v

/-- The keys, in insertion order. -/
def keys (d : List (String × V)) : List String := d.map Prod.fst

/-- A Python dictionary has no repeated key. -/
def WF (d : List (String × V)) : Prop := (keys d).Nodup

theorem get_set (d : List (String × V)) (k k' : String) (v : V) :
    get (set d k v) k' = if k' = k then some v else get d k' := by
  induction d with
  | nil => simp [set, get, eq_comm]
  | cons p d ih =>
    obtain ⟨a, b⟩ := p
    simp only [set]
    split
    · next h => subst h; by_cases hk : k' = a <;> simp [get, hk, eq_comm]
    · next h =>
      simp only [get, ih]
      by_cases hk : a = k'
      · subst hk; simp [h]
      · simp [hk]

theorem get_erase (d : List (String × V)) (k k' : String) :
    get (erase d k) k' = if k' = k then none else get d k' := by
  induction d with
  | nil => simp [erase, get]
  | cons p d ih =>
    obtain ⟨a, b⟩ := p
    simp only [erase, List.filter_cons] at ih ⊢
    by_cases h : a = k
    · subst h
      simp only [ne_eq, not_true_eq_false, decide_false, Bool.false_eq_true, if_false, ih, get]
      by_cases hk : k' = a
      · simp [hk]
      · simp [hk, Ne.symm hk]
    · simp only [ne_eq, h, not_false_eq_true, decide_true, if_true, get, ih]
      by_cases hk : a = k'
      · subst hk; simp [h]
      · simp [hk]

theorem get_eq_none_iff (d : List (String × V)) (k : String) :
    get d k = none ↔ k ∉ keys d := by
  induction d with
  | nil => simp [get, keys]
  | cons p d ih =>
    obtain ⟨a, b⟩ := p
    simp only [keys] at ih
    by_cases h : a = k
    · simp [get, keys, h]
    · simp [get, keys, h, ih, Ne.symm h]

theorem mem_of_get {d : List (String × V)} {k : String} {v : V} (h : get d k = some v) :
    (k, v) ∈ d := by
  induction d with
  | nil => simp [get] at h
  | cons p d ih =>
    obtain ⟨a, b⟩ := p
    simp only [get] at h
    split at h
    · next ha => simp only [Option.some.injEq] at h; subst ha h; simp
    · simp [ih h]

theorem get_of_mem {d : List (String × V)} (hd : WF d) {k : String} {v : V} (h : (k, v) ∈ d) :
    get d k = some v := by
  induction d with
  | nil => simp at h
  | cons p d ih =>
    obtain ⟨a, b⟩ := p
    simp only [WF, keys, List.map_cons, List.nodup_cons] at hd
    rcases List.mem_cons.1 h with h | h
    · simp only [Prod.mk.injEq] at h; simp [get, h.1, h.2]
    · have : a ≠ k := by
        rintro rfl
        exact hd.1 (List.mem_map.2 ⟨_, h, rfl⟩)
      simp [get, this, ih hd.2 h]

theorem keys_set (d : List (String × V)) (k : String) (v : V) :
    keys (set d k v) = if k ∈ keys d then keys d else keys d ++ [k] := by
  induction d with
  | nil => simp [set, keys]
  | cons p d ih =>
    obtain ⟨a, b⟩ := p
    simp only [keys] at ih ⊢
    by_cases h : a = k
    · subst h; simp [set]
    · simp only [set, h, if_false, List.map_cons, ih]
      by_cases hk : k ∈ d.map Prod.fst
      · simp [hk]
      · simp [hk, Ne.symm h]

theorem WF.set {d : List (String × V)} (hd : WF d) (k : String) (v : V) : WF (set d k v) := by
  unfold WF at *
  rw [keys_set]
  split
  · exact hd
  · next h => simpa [List.nodup_append] using ⟨hd, fun a ha => by rintro rfl; exact h ha⟩

theorem WF.erase {d : List (String × V)} (hd : WF d) (k : String) : WF (erase d k) := by
  unfold WF keys at *
  exact hd.sublist ((List.filter_sublist).map _)

end Dict

end Neps
