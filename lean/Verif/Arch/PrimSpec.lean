import Verif.Arch.PrimModel

/-!
# Specification of the shapes of the predefined operations
-/

namespace Verif.Arch.Prim

/-- `m` is `n` divided by the stride `s`, rounded up. -/
def IsCeil (m n s : ℕ) : Prop := n ≤ m * s ∧ m * s < n + s

/-- What an operation of stride `s` from `cin` to `cout` channels has to do: every image with `cin` channels
becomes one with `cout` channels, of height and width divided by the stride and rounded up. -/
def Conforms (f : Img → Option Img) (s cin cout : ℕ) : Prop :=
  ∀ x : Img, x.c = cin → 1 ≤ x.h → 1 ≤ x.w →
    ∃ y, f x = some y ∧ y.c = cout ∧ IsCeil y.h x.h s ∧ IsCeil y.w x.w s

/-- The arguments with which the operations conform: kernels of odd size with the padding that belongs to
them, kernels of size three where the padding is fixed, and equal channels where the operation cannot change
them. -/
def Proper : Op → ℕ → ℕ → ℕ → Prop
  | .identity, s, cin, cout => s = 1 ∧ cin = cout
  | .zero s', s, cin, cout => s' = s ∧ 1 ≤ s ∧ cin = cout
  | .zero1x1 s', s, cin, cout => s' = s ∧ 1 ≤ s ∧ cout = if s = 1 then cin else 2 * cin
  | .sepConv ci co k s' p, s, cin, cout => ci = cin ∧ co = cout ∧ s' = s ∧ 1 ≤ s ∧ k = 2 * p + 1
  | .dilConv ci co k s' p d, s, cin, cout =>
    ci = cin ∧ co = cout ∧ s' = s ∧ 1 ≤ s ∧ 1 ≤ k ∧ 2 * p = d * (k - 1)
  | .stem ci co, s, cin, cout => ci = cin ∧ co = cout ∧ s = 1
  | .maxPool k s', s, cin, cout => k = 3 ∧ s' = s ∧ 1 ≤ s ∧ cin = cout
  | .maxPool1x1 k s' ci co, s, cin, cout =>
    k = 3 ∧ ci = cin ∧ co = cout ∧ s' = s ∧ 1 ≤ s ∧ (s = 1 → cin = cout)
  | .avgPool _ s', s, cin, cout => s' = s ∧ 1 ≤ s ∧ cin = cout
  | .avgPool1x1 _ s' ci co, s, cin, cout =>
    ci = cin ∧ co = cout ∧ s' = s ∧ 1 ≤ s ∧ (s = 1 → cin = cout)
  | .conv ci co k s', s, cin, cout =>
    ci = cin ∧ co = cout ∧ s' = s ∧ 1 ≤ s ∧ (k = 3 ∨ k = 1 ∧ s = 1)
  | .block ci co s', s, cin, cout => ci = cin ∧ co = cout ∧ s' = s ∧ (s = 1 ∧ cin = cout ∨ s = 2)

/-- A sequence of operations, with the channels fitting and the given strides. -/
inductive Chain : List Op → List ℕ → ℕ → ℕ → Prop
  | nil (c : ℕ) : Chain [] [] c c
  | cons {op : Op} {ops : List Op} {s : ℕ} {ss : List ℕ} {a b c : ℕ} :
    Proper op s a b → Chain ops ss b c → Chain (op :: ops) (s :: ss) a c

end Verif.Arch.Prim
