import Verif.Arch.PrimSpec
import Mathlib.Tactic.Ring
import Mathlib.Algebra.BigOperators.Group.List.Basic

/-!
# C160: the predefined operations can be constructed and exchanged for one another
-/

namespace Verif.Arch.Prim

/-! ## Sizes -/

theorem isCeil_unique {a b n s : ℕ} (ha : IsCeil a n s) (hb : IsCeil b n s) : a = b := by
  obtain ⟨ha1, ha2⟩ := ha
  obtain ⟨hb1, hb2⟩ := hb
  by_contra hne
  rcases Nat.lt_or_gt_of_ne hne with h | h
  · have : (a + 1) * s ≤ b * s := Nat.mul_le_mul_right s h
    have h2 : (a + 1) * s = a * s + s := by ring
    omega
  · have : (b + 1) * s ≤ a * s := Nat.mul_le_mul_right s h
    have h2 : (b + 1) * s = b * s + s := by ring
    omega

theorem isCeil_div {n s : ℕ} (hn : 1 ≤ n) (hs : 1 ≤ s) : IsCeil ((n - 1) / s + 1) n s := by
  have h1 := Nat.div_add_mod (n - 1) s
  have h2 := Nat.mod_lt (n - 1) hs
  have h3 : ((n - 1) / s + 1) * s = s * ((n - 1) / s) + s := by ring
  unfold IsCeil
  omega

theorem isCeil_every {n s : ℕ} (hn : 1 ≤ n) (hs : 1 ≤ s) : IsCeil ((n + s - 1) / s) n s := by
  have : n + s - 1 = (n - 1) + s := by omega
  rw [this, Nat.add_div_right _ hs]
  exact isCeil_div hn hs

theorem isCeil_one (n : ℕ) : IsCeil n n 1 := by unfold IsCeil; omega

theorem isCeil_pos {m n s : ℕ} (h : IsCeil m n s) (hn : 1 ≤ n) : 1 ≤ m := by
  rcases Nat.eq_zero_or_pos m with rfl | hm
  · have := h.1
    omega
  · exact hm

theorem isCeil_mul {a b n s t : ℕ} (h1 : IsCeil a n s) (h2 : IsCeil b a t) : IsCeil b n (s * t) := by
  obtain ⟨h11, h12⟩ := h1
  obtain ⟨h21, h22⟩ := h2
  have e1 : b * (s * t) = b * t * s := by ring
  rcases Nat.eq_zero_or_pos s with rfl | hs
  · omega
  constructor
  · rw [e1]
    exact h11.trans (Nat.mul_le_mul_right s h21)
  · rw [e1]
    -- b t ≤ a + t - 1
    have h3 : b * t ≤ a + (t - 1) := by omega
    have h4 : b * t * s ≤ (a + (t - 1)) * s := Nat.mul_le_mul_right s h3
    have h5 : (a + (t - 1)) * s = a * s + (t - 1) * s := by ring
    have h6 : (t - 1) * s + s = s * t := by
      rcases Nat.eq_zero_or_pos t with rfl | ht
      · omega
      · obtain ⟨t', rfl⟩ := Nat.exists_eq_add_of_le ht
        simp
        ring
    omega

theorem outSize_ok {k s p d n : ℕ} (hn : 1 ≤ n) (hs : 1 ≤ s) (hp : 2 * p = d * (k - 1)) :
    outSize k s p d n = some ((n - 1) / s + 1) := by
  unfold outSize
  rw [if_neg (by omega)]
  congr 3
  omega

theorem conv2d_ok {cin cout k s p d : ℕ} {x : Img} (hc : x.c = cin) (hh : 1 ≤ x.h) (hw : 1 ≤ x.w)
    (hs : 1 ≤ s) (hp : 2 * p = d * (k - 1)) :
    conv2d cin cout k s p d x = some ⟨cout, (x.h - 1) / s + 1, (x.w - 1) / s + 1⟩ := by
  simp [conv2d, hc, outSize_ok hh hs hp, outSize_ok hw hs hp]

theorem conv2d_one {cin cout k p d : ℕ} {x : Img} (hc : x.c = cin) (hh : 1 ≤ x.h) (hw : 1 ≤ x.w)
    (hp : 2 * p = d * (k - 1)) : conv2d cin cout k 1 p d x = some ⟨cout, x.h, x.w⟩ := by
  rw [conv2d_ok hc hh hw (Nat.le_refl 1) hp]
  simp only [Nat.div_one]
  congr 2 <;> omega

theorem conv2d_point {c cout h w : ℕ} (hh : 1 ≤ h) (hw : 1 ≤ w) :
    conv2d c cout 1 1 0 1 ⟨c, h, w⟩ = some ⟨cout, h, w⟩ :=
  conv2d_one (x := ⟨c, h, w⟩) rfl hh hw rfl

theorem pool2d_ok {s : ℕ} {x : Img} (hh : 1 ≤ x.h) (hw : 1 ≤ x.w) (hs : 1 ≤ s) :
    pool2d 3 s 1 x = some ⟨x.c, (x.h - 1) / s + 1, (x.w - 1) / s + 1⟩ := by
  simp [pool2d, outSize_ok (k := 3) (p := 1) (d := 1) hh hs rfl,
    outSize_ok (k := 3) (p := 1) (d := 1) hw hs rfl]

theorem pad_ok {k s : ℕ} (h : k = 3 ∨ k = 1 ∧ s = 1) : 2 * pad k s = 1 * (k - 1) := by
  rcases h with rfl | ⟨rfl, rfl⟩ <;> simp [pad]

theorem convNorm_ok {cin cout k s : ℕ} {x : Img} (hc : x.c = cin) (hh : 1 ≤ x.h) (hw : 1 ≤ x.w)
    (hs : 1 ≤ s) (hk : k = 3 ∨ k = 1 ∧ s = 1) :
    convNorm cin cout k s x = some ⟨cout, (x.h - 1) / s + 1, (x.w - 1) / s + 1⟩ := by
  simp [convNorm, conv2d_ok hc hh hw hs (pad_ok hk), norm]

theorem widen_ok {s cin cout : ℕ} {x : Img} (hc : x.c = cin) (hh : 1 ≤ x.h) (hw : 1 ≤ x.w)
    (h : s = 1 → cin = cout) (hs : 1 ≤ s) : widen s cin cout x = some ⟨cout, x.h, x.w⟩ := by
  unfold widen
  by_cases h1 : 1 < s
  · rw [if_pos h1, conv2d_one (k := 1) (p := 0) (d := 1) hc hh hw rfl]
    simp [norm]
  · rw [if_neg h1]
    have := h (by omega)
    rw [← this, ← hc]

theorem widen_at {s c cout h w : ℕ} (h1 : s = 1 → c = cout) (hs : 1 ≤ s) :
    widen s c cout ⟨c, h + 1, w + 1⟩ = some ⟨cout, h + 1, w + 1⟩ :=
  widen_ok (x := ⟨c, h + 1, w + 1⟩) rfl (Nat.le_add_left 1 _) (Nat.le_add_left 1 _) h1 hs

theorem convNorm_at {c cout h w : ℕ} :
    convNorm c cout 3 1 ⟨c, h + 1, w + 1⟩ = some ⟨cout, h + 1, w + 1⟩ := by
  rw [convNorm_ok (x := ⟨c, h + 1, w + 1⟩) rfl (Nat.le_add_left 1 _) (Nat.le_add_left 1 _) (Nat.le_refl 1)
    (Or.inl rfl)]
  simp

/-! ## The property -/

/-- C160, proved for the operations whose arguments fit: an operation of stride `s` from `cin` to `cout`
channels turns every image with `cin` channels into one with `cout` channels and the height and width
divided by the stride, rounded up. -/
theorem C160_shape_partial (op : Op) (s cin cout : ℕ) (hp : Proper op s cin cout) :
    Conforms (forward op) s cin cout := by
  intro x hc hh hw
  cases op with
  | identity =>
    obtain ⟨rfl, rfl⟩ := hp
    exact ⟨x, rfl, hc, isCeil_one _, isCeil_one _⟩
  | zero s' =>
    obtain ⟨rfl, hs, rfl⟩ := hp
    by_cases h1 : s' = 1
    · subst h1
      exact ⟨x, by simp [forward], hc, isCeil_one _, isCeil_one _⟩
    · exact ⟨⟨x.c, (x.h + s' - 1) / s', (x.w + s' - 1) / s'⟩,
        by simp only [forward, if_neg h1, every, if_neg (show s' ≠ 0 by omega)], hc, isCeil_every hh hs, isCeil_every hw hs⟩
  | zero1x1 s' =>
    obtain ⟨rfl, hs, hco⟩ := hp
    by_cases h1 : s' = 1
    · subst h1
      rw [if_pos rfl] at hco
      exact ⟨x, by simp [forward], hc.trans hco.symm, isCeil_one _, isCeil_one _⟩
    · rw [if_neg h1] at hco
      refine ⟨⟨x.c + x.c, (x.h + s' - 1) / s', (x.w + s' - 1) / s'⟩,
        by simp only [forward, if_neg h1, every, if_neg (show s' ≠ 0 by omega), Option.map_some], ?_,
        isCeil_every hh hs, isCeil_every hw hs⟩
      simp only
      omega
  | sepConv ci co k s' p =>
    obtain ⟨rfl, rfl, rfl, hs, hk⟩ := hp
    have hk' : 2 * p = 1 * (k - 1) := by omega
    refine ⟨⟨co, (x.h - 1) / s' + 1, (x.w - 1) / s' + 1⟩, ?_, rfl, isCeil_div hh hs, isCeil_div hw hs⟩
    simp only [forward]
    rw [conv2d_ok hc hh hw hs hk', Option.bind_some, conv2d_point (Nat.le_add_left 1 _) (Nat.le_add_left 1 _),
      Option.bind_some, norm, if_pos rfl, Option.bind_some, conv2d_one (x := ⟨ci, _, _⟩) rfl (Nat.le_add_left 1 _) (Nat.le_add_left 1 _) hk',
      Option.bind_some, conv2d_point (Nat.le_add_left 1 _) (Nat.le_add_left 1 _), Option.bind_some, norm, if_pos rfl]
  | dilConv ci co k s' p d =>
    obtain ⟨rfl, rfl, rfl, hs, _, hk⟩ := hp
    refine ⟨⟨co, (x.h - 1) / s' + 1, (x.w - 1) / s' + 1⟩, ?_, rfl, isCeil_div hh hs, isCeil_div hw hs⟩
    simp only [forward]
    rw [conv2d_ok hc hh hw hs hk, Option.bind_some, conv2d_point (Nat.le_add_left 1 _) (Nat.le_add_left 1 _),
      Option.bind_some, norm, if_pos rfl]
  | stem ci co =>
    obtain ⟨rfl, rfl, rfl⟩ := hp
    refine ⟨⟨co, x.h, x.w⟩, ?_, rfl, isCeil_one _, isCeil_one _⟩
    simp only [forward]
    rw [conv2d_one (k := 3) (p := 1) (d := 1) hc hh hw rfl, Option.bind_some, norm, if_pos rfl]
  | maxPool k s' =>
    obtain ⟨rfl, rfl, hs, rfl⟩ := hp
    exact ⟨_, pool2d_ok hh hw hs, hc, isCeil_div hh hs, isCeil_div hw hs⟩
  | maxPool1x1 k s' ci co =>
    obtain ⟨rfl, rfl, rfl, rfl, hs, h1⟩ := hp
    refine ⟨⟨co, (x.h - 1) / s' + 1, (x.w - 1) / s' + 1⟩, ?_, rfl, isCeil_div hh hs, isCeil_div hw hs⟩
    simp only [forward]
    rw [pool2d_ok hh hw hs, Option.bind_some, hc, widen_at h1 hs]
  | avgPool k s' =>
    obtain ⟨rfl, hs, rfl⟩ := hp
    exact ⟨_, pool2d_ok hh hw hs, hc, isCeil_div hh hs, isCeil_div hw hs⟩
  | avgPool1x1 k s' ci co =>
    obtain ⟨rfl, rfl, rfl, hs, h1⟩ := hp
    refine ⟨⟨co, (x.h - 1) / s' + 1, (x.w - 1) / s' + 1⟩, ?_, rfl, isCeil_div hh hs, isCeil_div hw hs⟩
    simp only [forward]
    rw [pool2d_ok hh hw hs, Option.bind_some, hc, widen_at h1 hs]
  | conv ci co k s' =>
    obtain ⟨rfl, rfl, rfl, hs, hk⟩ := hp
    exact ⟨_, convNorm_ok hc hh hw hs hk, rfl, isCeil_div hh hs, isCeil_div hw hs⟩
  | block ci co s' =>
    obtain ⟨rfl, rfl, rfl, h⟩ := hp
    rcases h with ⟨rfl, rfl⟩ | rfl
    · refine ⟨x, ?_, hc, isCeil_one _, isCeil_one _⟩
      simp only [forward]
      rw [if_pos (by simp), convNorm_ok hc hh hw (Nat.le_refl 1) (Or.inl rfl), Option.bind_some,
        convNorm_at]
      have e1 : x.h - 1 + 1 = x.h := by omega
      have e2 : x.w - 1 + 1 = x.w := by omega
      have e : (⟨ci, x.h, x.w⟩ : Img) = x := by rw [← hc]
      simp [sum2, sumDim, e1, e2, hc, e]
    · refine ⟨⟨co, (x.h - 1) / 2 + 1, (x.w - 1) / 2 + 1⟩, ?_, rfl, isCeil_div hh (by omega),
        isCeil_div hw (by omega)⟩
      simp only [forward]
      rw [if_pos (by simp), convNorm_ok hc hh hw (by omega) (Or.inl rfl), Option.bind_some,
        convNorm_at,
        if_pos trivial,
        conv2d_ok (k := 1) (p := 0) (d := 1) hc hh hw (by omega) rfl, Option.bind_some, norm, if_pos rfl]
      simp [sum2, sumDim]

/-- C160, the consequence for an edge: two such operations of the same stride and channels can take each
other's place, since every image has the same shape after both. -/
theorem C160_exchange_partial (a b : Op) (s cin cout : ℕ) (ha : Proper a s cin cout)
    (hb : Proper b s cin cout) (x : Img) (hc : x.c = cin) (hh : 1 ≤ x.h) (hw : 1 ≤ x.w) :
    forward a x = forward b x ∧ (forward a x).isSome := by
  obtain ⟨y, hy, hyc, hyh, hyw⟩ := C160_shape_partial a s cin cout ha x hc hh hw
  obtain ⟨z, hz, hzc, hzh, hzw⟩ := C160_shape_partial b s cin cout hb x hc hh hw
  have : y = z := by
    obtain ⟨c1, h1, w1⟩ := y
    obtain ⟨c2, h2, w2⟩ := z
    simp only at hyc hzc hyh hzh hyw hzw
    rw [hyc, hzc, isCeil_unique hyh hzh, isCeil_unique hyw hzw]
  rw [hy, hz, this]
  exact ⟨rfl, rfl⟩

/-- C160, the consequence for a path: a sequence of such operations has the product of their strides. -/
theorem C160_sequence_partial (ops : List Op) (ss : List ℕ) (cin cout : ℕ) (h : Chain ops ss cin cout) :
    Conforms (forwardAll ops) ss.prod cin cout := by
  induction h with
  | nil c => exact fun x hc _ _ => ⟨x, rfl, hc, by simpa using isCeil_one _, by simpa using isCeil_one _⟩
  | @cons op ops s ss a b c hp _ ih =>
    intro x hc hh hw
    obtain ⟨y, hy, hyc, hyh, hyw⟩ := C160_shape_partial op s a b hp x hc hh hw
    obtain ⟨z, hz, hzc, hzh, hzw⟩ := ih y hyc (isCeil_pos hyh hh) (isCeil_pos hyw hw)
    refine ⟨z, by simp [forwardAll, hy, hz], hzc, ?_, ?_⟩
    · rw [List.prod_cons]
      exact isCeil_mul hyh hzh
    · rw [List.prod_cons]
      exact isCeil_mul hyw hzw

theorem cat_ok {c h w : ℕ} : ∀ l : List Img, l ≠ [] → (∀ x ∈ l, x = ⟨c, h, w⟩) →
    cat l = some ⟨l.length * c, h, w⟩
  | [], hn, _ => absurd rfl hn
  | [x], _, hl => by rw [hl x (by simp)]; simp [cat]
  | x :: y :: l, _, hl => by
    have ih := cat_ok (y :: l) (by simp) fun z hz => hl z (List.mem_cons_of_mem _ hz)
    rw [cat, ih]
    have hx := hl x (by simp)
    subst hx
    simp only [and_self, if_true, List.length_cons]
    congr 2
    ring

/-- C160: what arrives over `n` edges with `c` channels each is merged into an image with `c` channels of the
same size. -/
theorem C160_concat (n c h w : ℕ) (l : List Img) (hn : 1 ≤ n) (hl : l.length = n) (hh : 1 ≤ h)
    (hw : 1 ≤ w) (hx : ∀ x ∈ l, x = ⟨c, h, w⟩) : concat1x1 n c l = some ⟨c, h, w⟩ := by
  have hne : l ≠ [] := by
    rintro rfl
    simp at hl
    omega
  rw [concat1x1, cat_ok l hne hx, Option.bind_some, hl, conv2d_point hh hw, Option.bind_some,
    norm, if_pos rfl]

/-! ## Where it fails -/

/-- C160 fails at the very start: no predefined operation can be constructed, whatever its arguments,
because the arguments are passed on to a constructor that refuses them. -/
theorem C160_construct_fails (base : Base) (op : Op) : construct false base op = none := by
  cases base <;> rfl

/-- A class that derives from an operation, asks for the arguments to be passed on and has a further base
that accepts them can be constructed; the theorems on shapes are about these. -/
theorem C160_construct_partial (op : Op) : construct true .accepting op = some op := rfl

/-- C160 fails with a consequence for all graphs: the data of an edge contains an identity operation, so no
graph with an edge can be built, whatever `call_super_init` says. -/
theorem C160_edge_fails (callSuper : Bool) (edges : List (ℕ × ℕ)) :
    addEdges callSuper edges = none ↔ edges ≠ [] := by
  cases edges with
  | nil => simp [addEdges]
  | cons e es => cases callSuper <;> simp [addEdges, newEdge, construct, moduleInit]

/-- C160 fails for all convolutions with kernel size 1 and stride 2: every image gets one row and one column
too many. -/
theorem C160_pointwise_fails (cin cout : ℕ) (x : Img) (hc : x.c = cin) (hh : 1 ≤ x.h) (hw : 1 ≤ x.w) :
    ∃ y, forward (.conv cin cout 1 2) x = some y ∧ IsCeil (y.h - 1) x.h 2 ∧ IsCeil (y.w - 1) x.w 2 ∧
      ¬ IsCeil y.h x.h 2 := by
  refine ⟨⟨cout, (x.h + 1) / 2 + 1, (x.w + 1) / 2 + 1⟩, ?_, ?_, ?_, ?_⟩
  · simp [forward, convNorm, pad, conv2d, hc, outSize, norm]
  all_goals
    simp only [IsCeil]
    omega

/-- C160 fails for all convolutions with stride 1 and kernel size 2 or more than 3: no image keeps its
height. -/
theorem C160_kernel_fails (cin cout k : ℕ) (hk : k = 2 ∨ 4 ≤ k) (x y : Img)
    (h : forward (.conv cin cout k 1) x = some y) : y.h ≠ x.h := by
  have hp : pad k 1 = 1 := by
    unfold pad
    rw [if_neg (by omega)]
  simp only [forward, convNorm, hp, Option.bind_eq_some_iff, norm, conv2d] at h
  obtain ⟨z, hz, h⟩ := h
  split at h
  · obtain rfl := Option.some.inj h
    split at hz
    · split at hz
      · rename_i a b ha hb
        obtain rfl := Option.some.inj hz
        simp only
        unfold outSize at ha
        split at ha
        · simp at ha
        · simp only [Nat.div_one, Option.some.injEq] at ha
          omega
      · simp at hz
    · simp at hz
  · simp at h

/-- C160 fails for max pooling with a kernel other than 3: with kernel size 2 and stride 1 images grow, and
with kernel size 1 an exception is raised. -/
theorem C160_maxpool_fails (x : Img) (s : ℕ) :
    forward (.maxPool 2 1) x = some ⟨x.c, x.h + 1, x.w + 1⟩ ∧ forward (.maxPool 1 s) x = none := by
  constructor
  · simp [forward, pool2d, outSize]
  · simp [forward, pool2d]

/-- C160 fails for pooling with stride 1 between different numbers of channels: the channels stay. -/
theorem C160_channels_fails (k cin cout : ℕ) (hne : cin ≠ cout) (x : Img) (hc : x.c = cin)
    (hh : 1 ≤ x.h) (hw : 1 ≤ x.w) :
    ∃ y, forward (.avgPool1x1 k 1 cin cout) x = some y ∧ forward (.maxPool1x1 3 1 cin cout) x = some y ∧
      y.c ≠ cout := by
  refine ⟨⟨x.c, (x.h - 1) / 1 + 1, (x.w - 1) / 1 + 1⟩, ?_, ?_, ?_⟩
  · simp only [forward]
    rw [pool2d_ok hh hw (Nat.le_refl 1)]
    simp [widen]
  · simp only [forward]
    rw [pool2d_ok hh hw (Nat.le_refl 1)]
    simp [widen]
  · simp only
    rw [hc]
    exact hne

/-- C160 fails for residual blocks with stride 1 between different numbers of channels: an exception is
raised, or, for one output channel, the result has the channels of the input. -/
theorem C160_block_fails (cin cout : ℕ) (hne : cin ≠ cout) (h1 : cin ≠ 1) (x : Img) (hc : x.c = cin)
    (hh : 1 ≤ x.h) (hw : 1 ≤ x.w) :
    forward (.block cin cout 1) x = if cout = 1 then some x else none := by
  simp only [forward]
  rw [if_pos (by simp), convNorm_ok hc hh hw (Nat.le_refl 1) (Or.inl rfl), Option.bind_some,
    convNorm_at]
  have e1 : x.h - 1 + 1 = x.h := by omega
  have e2 : x.w - 1 + 1 = x.w := by omega
  have e : (⟨cin, x.h, x.w⟩ : Img) = x := by rw [← hc]
  by_cases h : cout = 1
  · simp [sum2, sumDim, hc, h, h1, e1, e2, e]
  · simp [sum2, sumDim, hc, h, h1, hne]

/-- C160 fails for the zero operation with a stride between different numbers of channels: although its
documentation says that the channels are doubled, they stay. -/
theorem C160_zero_fails (s : ℕ) (hs : 2 ≤ s) (x : Img) (hc : 1 ≤ x.c) :
    ∃ y, forward (.zero s) x = some y ∧ y.c ≠ 2 * x.c := by
  refine ⟨⟨x.c, (x.h + s - 1) / s, (x.w + s - 1) / s⟩, ?_, ?_⟩
  · simp only [forward, if_neg (show s ≠ 1 by omega), every, if_neg (show s ≠ 0 by omega)]
  · simp only
    omega

/-! ## Non-vacuity -/

example : Proper (.sepConv 16 32 5 2 2) 2 16 32 ∧ Proper (.dilConv 16 32 3 2 2 2) 2 16 32 ∧
    Proper (.conv 16 32 3 2) 2 16 32 ∧ Proper (.maxPool1x1 3 2 16 32) 2 16 32 ∧
    Proper (.avgPool1x1 3 2 16 32) 2 16 32 ∧ Proper (.zero1x1 2) 2 16 32 ∧
    Proper (.block 16 32 2) 2 16 32 := by
  simp [Proper]

example : forward (.sepConv 16 32 5 2 2) ⟨16, 33, 32⟩ = some ⟨32, 17, 16⟩ := by decide +kernel
example : forward (.block 16 32 2) ⟨16, 33, 32⟩ = some ⟨32, 17, 16⟩ := by decide +kernel
example : forward (.conv 16 32 1 2) ⟨16, 33, 32⟩ = some ⟨32, 18, 17⟩ := by decide +kernel

example : Chain [.stem 3 16, .conv 16 16 1 1, .block 16 32 2, .maxPool 3 2] [1, 1, 2, 2] 3 32 :=
  .cons (b := 16) (by simp [Proper]) (.cons (b := 16) (by simp [Proper])
    (.cons (b := 32) (by simp [Proper]) (.cons (b := 32) (by simp [Proper]) (.nil 32))))

example : concat1x1 3 8 [⟨8, 4, 4⟩, ⟨8, 4, 4⟩, ⟨8, 4, 4⟩] = some ⟨8, 4, 4⟩ := by decide +kernel

end Verif.Arch.Prim
