import Mathlib.Data.Nat.Notation
import Mathlib.Data.List.Basic

/-!
# Model of the predefined operations: construction and shapes

`neps/search_spaces/architecture/primitives.py`.

Simplifications, for the whole file: of a tensor only the number of channels, the height and the width
are kept (the number of images passes through all operations); the arguments are natural numbers, as after
`int(...)`; ReLU is left out, since it keeps the shape; a batch normalisation checks the channels only (in
training mode PyTorch also refuses a single value per channel); exceptions are `none`.
-/

namespace Verif.Arch.Prim

/-- Channels, height and width of a tensor. -/
structure Img where
  c : ℕ
  h : ℕ
  w : ℕ
deriving DecidableEq, Repr

/-- The predefined operations with their arguments. -/
inductive Op
  /-- `Identity`, `primitives.py:46-53`. -/
  | identity
  /-- `Zero`, `primitives.py:56-75`. -/
  | zero (s : ℕ)
  /-- `Zero1x1`, `primitives.py:78-98`. -/
  | zero1x1 (s : ℕ)
  /-- `SepConv`, `primitives.py:101-160`. -/
  | sepConv (cin cout k s p : ℕ)
  /-- `DilConv`, `primitives.py:163-213`. -/
  | dilConv (cin cout k s p d : ℕ)
  /-- `Stem`, `primitives.py:216-231`. -/
  | stem (cin cout : ℕ)
  /-- `MaxPool`, `primitives.py:251-261`. -/
  | maxPool (k s : ℕ)
  /-- `MaxPool1x1`, `primitives.py:264-300`. -/
  | maxPool1x1 (k s cin cout : ℕ)
  /-- `AvgPool`, `primitives.py:303-314`. -/
  | avgPool (k s : ℕ)
  /-- `AvgPool1x1`, `primitives.py:317-347`. -/
  | avgPool1x1 (k s cin cout : ℕ)
  /-- `ReLUConvBN`, `ConvBnReLU` and `ConvBn`, `primitives.py:350-444`, which differ in the ReLU. -/
  | conv (cin cout k s : ℕ)
  /-- `ResNetBasicblock`, `primitives.py:474-499`. -/
  | block (cin cout s : ℕ)
deriving DecidableEq, Repr

/-- The size of the output of a convolution or pooling with kernel `k`, stride `s`, padding `p` and
dilation `d` (the formula of PyTorch); the kernel must fit into the padded input. -/
def outSize (k s p d n : ℕ) : Option ℕ :=
  if n + 2 * p < d * (k - 1) + 1 ∨ s = 0 then none
  else some ((n + 2 * p - (d * (k - 1) + 1)) / s + 1)

/-- `nn.Conv2d`. -/
def conv2d (cin cout k s p d : ℕ) (x : Img) : Option Img :=
  if x.c = cin then
    match outSize k s p d x.h, outSize k s p d x.w with
    | some h, some w => some ⟨cout, h, w⟩
    | _, _ => none
  else none

/-- `nn.MaxPool2d` and `nn.AvgPool2d`: the padding is at most half of the kernel. -/
def pool2d (k s p : ℕ) (x : Img) : Option Img :=
  if k < 2 * p then none
  else match outSize k s p 1 x.h, outSize k s p 1 x.w with
    | some h, some w => some ⟨x.c, h, w⟩
    | _, _ => none

/-- `nn.BatchNorm2d`. -/
def norm (c : ℕ) (x : Img) : Option Img := if x.c = c then some x else none

/-- `x[:, :, ::s, ::s]`, `primitives.py:72,94`. -/
def every (s : ℕ) (x : Img) : Option Img :=
  if s = 0 then none else some ⟨x.c, (x.h + s - 1) / s, (x.w + s - 1) / s⟩

/-- One dimension of a sum of tensors: equal, or one of them 1. -/
def sumDim (a b : ℕ) : Option ℕ :=
  if a = b then some a else if a = 1 then some b else if b = 1 then some a else none

/-- The sum of two tensors, `primitives.py:499`. -/
def sum2 (x y : Img) : Option Img :=
  match sumDim x.c y.c, sumDim x.h y.h, sumDim x.w y.w with
  | some c, some h, some w => some ⟨c, h, w⟩
  | _, _, _ => none

/-- The padding, `primitives.py:365,398,431`. -/
def pad (k s : ℕ) : ℕ := if s = 1 ∧ k = 1 then 0 else 1

/-- `ReLUConvBN`, `ConvBnReLU` and `ConvBn`, `primitives.py:365-373,398-406,431-438`. -/
def convNorm (cin cout k s : ℕ) (x : Img) : Option Img :=
  (conv2d cin cout k s (pad k s) 1 x).bind (norm cout)

/-- The convolution after a pooling, if the stride is not one, `primitives.py:288-300,335-347`. -/
def widen (s cin cout : ℕ) (x : Img) : Option Img :=
  if 1 < s then (conv2d cin cout 1 1 0 1 x).bind (norm cout) else some x

/-- `forward` of the operations. -/
def forward : Op → Img → Option Img
  | .identity, x => some x
  | .zero s, x => if s = 1 then some x else every s x
  | .zero1x1 s, x => if s = 1 then some x else (every s x).map fun y => ⟨y.c + y.c, y.h, y.w⟩
  | .sepConv cin cout k s p, x =>
    ((((((conv2d cin cin k s p 1 x).bind (conv2d cin cin 1 1 0 1)).bind (norm cin)).bind
      (conv2d cin cin k 1 p 1)).bind (conv2d cin cout 1 1 0 1)).bind (norm cout))
  | .dilConv cin cout k s p d, x =>
    ((conv2d cin cin k s p d x).bind (conv2d cin cout 1 1 0 1)).bind (norm cout)
  | .stem cin cout, x => (conv2d cin cout 3 1 1 1 x).bind (norm cout)
  | .maxPool k s, x => pool2d k s 1 x
  | .maxPool1x1 k s cin cout, x => (pool2d k s 1 x).bind (widen s cin cout)
  | .avgPool _ s, x => pool2d 3 s 1 x
  | .avgPool1x1 _ s cin cout, x => (pool2d 3 s 1 x).bind (widen s cin cout)
  | .conv cin cout k s, x => convNorm cin cout k s x
  | .block cin cout s, x =>
    if s = 1 ∨ s = 2 then
      match (convNorm cin cout 3 s x).bind (convNorm cout cout 3 1),
        (if s = 2 then (conv2d cin cout 1 2 0 1 x).bind (norm cout) else some x) with
      | some y, some r => sum2 r y
      | _, _ => none
    else none

/-- `Sequential.forward`, `primitives.py:244-245`. -/
def forwardAll : List Op → Img → Option Img
  | [], x => some x
  | op :: ops, x => (forward op x).bind (forwardAll ops)

/-- `torch.cat(x, dim=1)`, `primitives.py:469`: heights and widths agree. -/
def cat : List Img → Option Img
  | [] => none
  | [x] => some x
  | x :: y :: l => match cat (y :: l) with
    | some z => if x.h = z.h ∧ x.w = z.w then some ⟨x.c + z.c, x.h, x.w⟩ else none
    | none => none

/-- `Concat1x1`, `primitives.py:447-471`. -/
def concat1x1 (n cout : ℕ) (l : List Img) : Option Img :=
  (cat l).bind fun x => (conv2d (n * cout) cout 1 1 0 1 x).bind (norm cout)

/-- The bases of a class behind `nn.Module`: `object`, whose constructor takes no argument, or a class
whose constructor takes one. -/
inductive Base
  | object
  | accepting
deriving DecidableEq

/-- `nn.Module.__init__` with `n` positional arguments: they are refused unless the class asks for them to
be passed on to its next base (`call_super_init`), where they must be accepted. -/
def moduleInit (callSuper : Bool) (base : Base) (n : ℕ) : Bool :=
  if callSuper then base = .accepting || n = 0 else n = 0

/-- The constructor of an operation up to its second line: all of them call `super().__init__(locals())`
(`primitives.py:50,65,87,116,179,222,240,253,279,308,332,360,396,429,459,483`), and neither
`AbstractPrimitive` nor `_AbstractPrimitive` has a constructor (`primitives.py:9-43`), so this calls
`nn.Module.__init__` with one argument. -/
def construct (callSuper : Bool) (base : Base) (op : Op) : Option Op :=
  if moduleInit callSuper base 1 then some op else none

/-- The data of a new edge: `EdgeData.__init__` constructs an `Identity`, whose next base is `object`
(`neps/search_spaces/architecture/graph.py:528-547`). The flag is `nn.Module.call_super_init`, a class
attribute that is false by default. -/
def newEdge (callSuper : Bool) : Option Op := construct callSuper .object .identity

/-- Adding edges to a graph, one after the other, each with new data
(`neps/search_spaces/architecture/graph.py:122`, `topologies.py:59-60`); the result is the edges added. -/
def addEdges (callSuper : Bool) : List (ℕ × ℕ) → Option (List (ℕ × ℕ))
  | [] => some []
  | e :: es => (newEdge callSuper).bind fun _ => (addEdges callSuper es).map (e :: ·)

end Verif.Arch.Prim
