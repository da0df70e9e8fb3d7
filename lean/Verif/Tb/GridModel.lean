import Mathlib.Data.Nat.Notation

/-!
# The grid of images

Model of `_make_grid` and of the choice of images in `_write_image_config`
(`neps/plot/tensorboard_eval.py:156-193, 319-358`). Resizing (`torch.nn.functional.interpolate`) is a
function on images.
-/

namespace Neps.Tb

variable {R : Type}

/-- An image: channel, row, column. -/
abbrev Image (R : Type) := ℕ → ℕ → ℕ → R

/-- The assignment to `grid[:, a:b, c:d]`, `neps/plot/tensorboard_eval.py:185-189`: the image is put at
row `top` and column `left`; it has `h` rows and `w` columns, as many as the slice. -/
def place (img : Image R) (h w top left : ℕ) (grid : Image R) : Image R := fun c r q =>
  if top ≤ r ∧ r < top + h ∧ left ≤ q ∧ q < left + w then img c (r - top) (q - left) else grid c r q

/-- The inner loop, `neps/plot/tensorboard_eval.py:181-190`: `xs` are the columns that are left, `k` is
the number of images placed so far. `h` and `w` are the height and width of a cell, that is, of an image
plus 2; the padding is 2. -/
def placeRow (images : ℕ → Image R) (batch h w y : ℕ) : List ℕ → Image R × ℕ → Image R × ℕ
  | [], s => s
  | x :: xs, (grid, k) =>
    if k ≥ batch then (grid, k)
    else placeRow images batch h w y xs
      (place (images k) (h - 2) (w - 2) (y * h + 2) (x * w + 2) grid, k + 1)

/-- The outer loop, `neps/plot/tensorboard_eval.py:180`. -/
def placeRows (images : ℕ → Image R) (batch h w nx : ℕ) : List ℕ → Image R × ℕ → Image R × ℕ
  | [], s => s
  | y :: ys, s =>
    placeRows images batch h w nx ys (placeRow images batch h w y (List.range nx) s)

/-- What `_make_grid` returns: rows, columns, pixels. -/
structure Grid (R : Type) where
  rows : ℕ
  cols : ℕ
  pixel : Image R

/-- `_make_grid` with the default padding, `neps/plot/tensorboard_eval.py:156-193`, for `batch` images with
`height` rows and `width` columns; `none` is the `ZeroDivisionError` in line 171. `math.ceil(a / b)` is
computed exactly. -/
def makeGrid [Zero R] (images : ℕ → Image R) (batch height width nrow : ℕ) : Option (Grid R) :=
  let nx := min nrow batch
  if nx = 0 then none
  else
    let ny := (batch + nx - 1) / nx
    let h := height + 2
    let w := width + 2
    some ⟨h * ny + 2, w * nx + 2,
      (placeRows images batch h w nx (List.range ny) (fun _ _ _ => 0, 0)).1⟩

/-- The images that are shown, `neps/plot/tensorboard_eval.py:331-343`: the first ones, or those with the
numbers `choice` draws. -/
def subset (images : ℕ → Image R) (total numImages : ℕ) (random : Option (List ℕ)) : List (Image R) :=
  let n := min numImages total
  match random with
  | none => (List.range n).map images
  | some idx => idx.map images

/-- `_write_image_config` from line 331 on: the grid of the chosen and resized images. `nrow` is
`int(n ** 0.75)` for `n` images; all that matters here is that it is at least one if `n` is. -/
def shownGrid [Zero R] (resize : Image R → Image R) (images : ℕ → Image R) (total numImages : ℕ)
    (random : Option (List ℕ)) (height width : ℕ) (nrow : ℕ → ℕ) : Option (Grid R) :=
  let s := subset images total numImages random
  makeGrid (fun k => resize ((s[k]?).getD (fun _ _ _ => 0))) s.length height width (nrow s.length)

/-! ## Specification -/

/-- Row `r` and column `q` belong to the image in row `y` and column `x` of the grid: they are its pixel
`(i, j)`. -/
def Shows (height width y x i j r q : ℕ) : Prop :=
  i < height ∧ j < width ∧ r = y * (height + 2) + 2 + i ∧ q = x * (width + 2) + 2 + j

/-- The grid shows the list of images: they are in rows of `nx` each, from left to right and from top to
bottom, every one complete and inside the grid, and everything else is zero. -/
structure ShowsAll [Zero R] (imgs : List (Image R)) (height width nx : ℕ) (g : Grid R) : Prop where
  pixels : ∀ (k : ℕ) (img : Image R), imgs[k]? = some img → ∀ c i j, i < height → j < width →
    ∃ r q, r < g.rows ∧ q < g.cols ∧ Shows height width (k / nx) (k % nx) i j r q ∧ g.pixel c r q = img c i j
  rest : ∀ c r q, (∀ k i j, k < imgs.length → ¬ Shows height width (k / nx) (k % nx) i j r q) →
    g.pixel c r q = 0

end Neps.Tb
