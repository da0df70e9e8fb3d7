import Verif.Tb.GridModel
import Mathlib.Algebra.Order.Group.Nat
import Mathlib.Tactic.Linarith
import Mathlib.Tactic.Ring

/-!
# C105: logged images are complete
-/

namespace Neps.Tb

variable {R : Type}

theorem shows_unique {height width y x i j y' x' i' j' r q : ℕ} (h : Shows height width y x i j r q)
    (h' : Shows height width y' x' i' j' r q) : y = y' ∧ x = x' ∧ i = i' ∧ j = j' := by
  obtain ⟨h1, h2, h3, h4⟩ := h
  obtain ⟨g1, g2, g3, g4⟩ := h'
  have key : ∀ a b m n p : ℕ, m < p → n < p → a * (p + 2) + 2 + m = b * (p + 2) + 2 + n →
      a = b ∧ m = n := by
    intro a b m n p hm hn he
    have hab : a = b := by
      rcases Nat.lt_trichotomy a b with h | h | h
      · exfalso
        have : (a + 1) * (p + 2) ≤ b * (p + 2) := Nat.mul_le_mul_right _ h
        rw [Nat.add_mul] at this
        omega
      · exact h
      · exfalso
        have : (b + 1) * (p + 2) ≤ a * (p + 2) := Nat.mul_le_mul_right _ h
        rw [Nat.add_mul] at this
        omega
    subst hab
    exact ⟨rfl, by omega⟩
  obtain ⟨e1, e2⟩ := key y y' i i' height h1 g1 (by omega)
  obtain ⟨e3, e4⟩ := key x x' j j' width h2 g2 (by omega)
  exact ⟨e1, e3, e2, e4⟩

/-- After `n` images. -/
def Placed [Zero R] (images : ℕ → Image R) (height width nx n : ℕ) (grid : Image R) : Prop :=
  (∀ k < n, ∀ c i j r q, Shows height width (k / nx) (k % nx) i j r q →
    grid c r q = images k c i j) ∧
  ∀ c r q, (∀ k i j, k < n → ¬ Shows height width (k / nx) (k % nx) i j r q) → grid c r q = 0

theorem placed_place [Zero R] {images : ℕ → Image R} {height width nx n : ℕ} {grid : Image R}
    (h : Placed images height width nx n grid) :
    Placed images height width nx (n + 1)
      (place (images n) height width (n / nx * (height + 2) + 2) (n % nx * (width + 2) + 2) grid) := by
  obtain ⟨h1, h2⟩ := h
  have hinj : ∀ k k' : ℕ, k / nx = k' / nx → k % nx = k' % nx → k = k' := by
    intro k k' a b
    rw [← Nat.div_add_mod k nx, ← Nat.div_add_mod k' nx, a, b]
  constructor
  · intro k hk c i j r q hs
    by_cases hkn : k = n
    · subst hkn
      obtain ⟨g1, g2, g3, g4⟩ := hs
      unfold place
      rw [if_pos (by omega)]
      congr 1 <;> omega
    · have hlt : k < n := by omega
      unfold place
      rw [if_neg]
      · exact h1 k hlt c i j r q hs
      · rintro ⟨a1, a2, a3, a4⟩
        have hs' : Shows height width (n / nx) (n % nx) (r - (n / nx * (height + 2) + 2))
            (q - (n % nx * (width + 2) + 2)) r q := ⟨by omega, by omega, by omega, by omega⟩
        obtain ⟨e1, e2, -, -⟩ := shows_unique hs hs'
        exact hkn (hinj k n e1 e2)
  · intro c r q hn
    unfold place
    rw [if_neg]
    · exact h2 c r q fun k i j hk => hn k i j (by omega)
    · rintro ⟨a1, a2, a3, a4⟩
      exact hn n (r - (n / nx * (height + 2) + 2)) (q - (n % nx * (width + 2) + 2)) (by omega)
        ⟨by omega, by omega, by omega, by omega⟩

theorem placeRow_placed [Zero R] {images : ℕ → Image R} {batch height width nx y : ℕ}
    (hnx : 0 < nx) : ∀ (m x : ℕ), x + m = nx → ∀ (grid : Image R) (k : ℕ),
    k = min batch (y * nx + x) → Placed images height width nx k grid →
    (placeRow images batch (height + 2) (width + 2) y (List.range' x m) (grid, k)).2 =
      min batch ((y + 1) * nx) ∧
    Placed images height width nx (min batch ((y + 1) * nx))
      (placeRow images batch (height + 2) (width + 2) y (List.range' x m) (grid, k)).1 := by
  intro m
  induction m with
  | zero =>
    intro x hx grid k hk hp
    have e : y * nx + x = (y + 1) * nx := by rw [Nat.add_mul]; omega
    rw [e] at hk
    subst hk
    exact ⟨rfl, hp⟩
  | succ m ih =>
    intro x hx grid k hk hp
    have e : (y + 1) * nx = y * nx + nx := by rw [Nat.add_mul]; omega
    rw [List.range'_succ]
    unfold placeRow
    by_cases hkb : k ≥ batch
    · rw [if_pos hkb]
      have : min batch ((y + 1) * nx) = k := by omega
      rw [this]
      exact ⟨rfl, hp⟩
    · rw [if_neg hkb]
      have hk' : k = y * nx + x := by omega
      have hdiv : k / nx = y := by
        rw [hk', Nat.mul_comm, Nat.mul_add_div hnx, Nat.div_eq_of_lt (by omega)]
        omega
      have hmod : k % nx = x := by
        rw [hk', Nat.mul_comm, Nat.mul_add_mod, Nat.mod_eq_of_lt (by omega)]
      refine ih (x + 1) (by omega) _ _ (by omega) ?_
      have := placed_place hp
      rw [hdiv, hmod] at this
      exact this

theorem placeRows_placed [Zero R] {images : ℕ → Image R} {batch height width nx : ℕ}
    (hnx : 0 < nx) : ∀ (m y : ℕ) (grid : Image R) (k : ℕ), k = min batch (y * nx) →
    Placed images height width nx k grid →
    Placed images height width nx (min batch ((y + m) * nx))
      (placeRows images batch (height + 2) (width + 2) nx (List.range' y m) (grid, k)).1 := by
  intro m
  induction m with
  | zero => intro y grid k hk hp; subst hk; exact hp
  | succ m ih =>
    intro y grid k hk hp
    rw [List.range'_succ]
    unfold placeRows
    rw [List.range_eq_range']
    obtain ⟨h1, h2⟩ := placeRow_placed hnx nx 0 (by omega) grid k (by rw [hk]; rfl) hp (y := y)
      (batch := batch)
    have := ih (y + 1) (placeRow images batch (height + 2) (width + 2) y (List.range' 0 nx) (grid, k)).1
      _ h1 (by rw [h1]; exact h2)
    rw [show y + 1 + m = y + (m + 1) by omega] at this
    exact this

theorem makeGrid_shows [Zero R] (imgs : List (Image R)) (images : ℕ → Image R)
    (hi : ∀ (k : ℕ) (img : Image R), imgs[k]? = some img → images k = img)
    (height width nrow : ℕ) (hr : 0 < nrow) (hb : imgs ≠ []) :
    ∃ g, makeGrid images imgs.length height width nrow = some g ∧
      ShowsAll imgs height width (min nrow imgs.length) g := by
  have hlen : 0 < imgs.length := List.length_pos_iff.2 hb
  generalize hB : imgs.length = B at *
  have hnx : 0 < min nrow B := by omega
  unfold makeGrid
  simp only
  rw [if_neg (by omega)]
  refine ⟨_, rfl, ?_⟩
  generalize min nrow B = nx at *
  generalize hny : (B + nx - 1) / nx = ny
  have hcover : B ≤ ny * nx := by
    have h1 := Nat.div_add_mod (B + nx - 1) nx
    have h2 := Nat.mod_lt (B + nx - 1) hnx
    rw [hny, Nat.mul_comm] at h1
    omega
  have hp := placeRows_placed (images := images) (height := height) (width := width) (batch := B) hnx ny
    0 (fun _ _ _ => 0) 0 (by simp) ⟨fun k hk => absurd hk (by omega), fun _ _ _ _ => rfl⟩
  rw [Nat.zero_add, Nat.min_eq_left hcover, ← List.range_eq_range'] at hp
  obtain ⟨h1, h2⟩ := hp
  constructor
  · intro k img hk c i j hih hjw
    have hkB : k < B := by rw [← hB]; exact (List.getElem?_eq_some_iff.1 hk).1
    have hs : Shows height width (k / nx) (k % nx) i j (k / nx * (height + 2) + 2 + i)
        (k % nx * (width + 2) + 2 + j) := ⟨hih, hjw, rfl, rfl⟩
    refine ⟨_, _, ?_, ?_, hs, ?_⟩
    · have hd : k / nx < ny := by
        rw [Nat.div_lt_iff_lt_mul hnx]
        omega
      have : (k / nx + 1) * (height + 2) ≤ ny * (height + 2) := Nat.mul_le_mul_right _ hd
      rw [Nat.add_mul] at this
      show _ < (height + 2) * ny + 2
      rw [Nat.mul_comm (height + 2) ny]
      omega
    · have hm : k % nx < nx := Nat.mod_lt _ hnx
      have : (k % nx + 1) * (width + 2) ≤ nx * (width + 2) := Nat.mul_le_mul_right _ hm
      rw [Nat.add_mul] at this
      show _ < (width + 2) * nx + 2
      rw [Nat.mul_comm (width + 2) nx]
      omega
    · exact (h1 k hkB c i j _ _ hs).trans (by rw [hi k img hk])
  · intro c r q hn
    exact h2 c r q (by rw [hB] at hn; exact hn)

/-- **C105**: whichever images are chosen, the first ones or random ones, the logged picture shows each of
them, resized, completely and once, in order, and nothing else. -/
theorem C105_grid [Zero R] (resize : Image R → Image R) (images : ℕ → Image R) (total numImages : ℕ)
    (random : Option (List ℕ)) (height width : ℕ) (nrow : ℕ → ℕ) (hrow : ∀ n, 0 < n → 0 < nrow n)
    (hne : subset images total numImages random ≠ []) :
    ∃ nx g, 0 < nx ∧ shownGrid resize images total numImages random height width nrow = some g ∧
      ShowsAll ((subset images total numImages random).map resize) height width nx g := by
  unfold shownGrid
  generalize subset images total numImages random = s at hne ⊢
  have hlen : 0 < s.length := List.length_pos_iff.2 hne
  obtain ⟨g, h1, h2⟩ := makeGrid_shows (s.map resize)
    (fun k => resize ((s[k]?).getD (fun _ _ _ => 0))) (by
      intro k img hk
      rw [List.getElem?_map] at hk
      cases hs : s[k]? with
      | none => rw [hs] at hk; simp at hk
      | some x => rw [hs] at hk; simpa using hk) height width (nrow s.length) (hrow _ hlen) (by simpa using hne)
  rw [List.length_map] at h1 h2
  exact ⟨min (nrow s.length) s.length, g, by have := hrow _ hlen; omega, h1, h2⟩

/-- **C105**: with the first images, these are the first `num_images`, or all if there are fewer. -/
theorem C105_first (images : ℕ → Image R) (total numImages : ℕ) :
    (subset images total numImages none).length = min numImages total ∧
    ∀ k, k < numImages → k < total → (subset images total numImages none)[k]? = some (images k) := by
  refine ⟨by simp [subset], fun k h1 h2 => ?_⟩
  simp only [subset, List.getElem?_map]
  rw [List.getElem?_range (by omega)]
  rfl

/-- Five images of two by three pixels in rows of three. -/
example :
    ((makeGrid (R := ℤ) (fun k _ i j => 100 * k + 10 * i + j + 1) 5 2 3 3).map fun g =>
      (g.rows, g.cols, g.pixel 0 6 7, g.pixel 0 7 9, g.pixel 0 6 12)) =
      some (10, 17, 401, 413, 0) := by decide +kernel

/-- **C105 fails** for an empty batch: the number of columns is zero, and the division raises. -/
theorem C105_empty_fails [Zero R] (images : ℕ → Image R) (height width nrow : ℕ) :
    makeGrid images 0 height width nrow = none := by
  simp [makeGrid]

end Neps.Tb
