import Verif.Space.SearchSpace

/-!
# Model of `==` for hyperparameters and search spaces

Simplifications: numbers are exact and have one type; subclasses of the four kinds of hyperparameters
are left out, so that `isinstance(other, self.__class__)` compares kinds.
-/

namespace Verif.Space

/-- `__eq__` of the hyperparameters (neps/search_spaces/hyperparameters/numerical.py:156-168,
categorical.py:121-132, constant.py:62-66).  A categorical parameter or a constant is never a fidelity.
Two kinds are not equal: `False`, or `NotImplemented` on both sides and then not the same object. -/
def Hp.Equal (h g : Hp) : Prop :=
  match h, g with
  | .float p, .float q => p.lower = q.lower ∧ p.upper = q.upper ∧ p.log = q.log ∧
      p.isFidelity = q.isFidelity ∧ p.value = q.value ∧ p.dflt = q.dflt ∧ p.score = q.score
  | .int p, .int q => p.lower = q.lower ∧ p.upper = q.upper ∧ p.log = q.log ∧
      p.isFidelity = q.isFidelity ∧ p.value = q.value ∧ p.dflt = q.dflt ∧ p.score = q.score
  | .cat p, .cat q => p.choices = q.choices ∧ p.value = q.value ∧ p.dflt = q.dflt ∧
      p.hasPrior = q.hasPrior ∧ p.score = q.score
  | .const p, .const q => p.value = q.value
  | _, _ => False

/-- `==` of search spaces: `SearchSpace` is a `Mapping` (neps/search_spaces/search_space.py:171, 812-819)
without an `__eq__` of its own, so the dictionaries of the items are compared: the same number of names,
and for every name of the one an equal parameter in the other. -/
def SearchSpace.Equal (s t : SearchSpace) : Prop :=
  List.length s = List.length t ∧ ∀ p ∈ s, ∃ g, Dict.get? t p.1 = some g ∧ p.2.Equal g

end Verif.Space
