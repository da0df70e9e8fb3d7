import Verif.Seed.Files

/-!
# Lemmas about the files of the random number generators
-/

namespace Neps.Seed.Files

theorem toBytes_length (k n : ℕ) : (toBytes k n).length = k := by
  induction k generalizing n with
  | zero => rfl
  | succ k ih => simp [toBytes, ih]

theorem ofBytes_toBytes (k n : ℕ) (h : n < 256 ^ k) : ofBytes (toBytes k n) = n := by
  induction k generalizing n with
  | zero => simp at h; simp [toBytes, ofBytes, h]
  | succ k ih =>
    simp only [toBytes, ofBytes]
    rw [ih _ (by rw [Nat.div_lt_iff_lt_mul (by norm_num)]; rw [pow_succ] at h; exact h)]
    omega

theorem toInt64_some {z : ℤ} {b : List ℕ} (h : toInt64 z = some b) :
    b.length = 8 ∧ ofInt64 b = z := by
  unfold toInt64 at h
  split at h
  · rename_i hz
    cases h
    refine ⟨toBytes_length _ _, ?_⟩
    have hlt : (z % 2 ^ 64).toNat < 256 ^ 8 := by norm_num; omega
    unfold ofInt64
    rw [ofBytes_toBytes _ _ hlt]
    norm_num at hz ⊢
    split <;> omega
  · cases h

theorem toInt64_isSome {z : ℤ} (h1 : 0 ≤ z) (h2 : z < 2 ^ 32) : ∃ b, toInt64 z = some b := by
  unfold toInt64
  rw [if_pos (by norm_num at *; omega)]
  exact ⟨_, rfl⟩

theorem mapM_toInt64 (ws : List ℤ) (h : ∀ z ∈ ws, 0 ≤ z ∧ z < 2 ^ 32) :
    ∃ bs, ws.mapM toInt64 = some bs := by
  induction ws with
  | nil => exact ⟨[], rfl⟩
  | cons z ws ih =>
    obtain ⟨b, hb⟩ := toInt64_isSome (h z (by simp)).1 (h z (by simp)).2
    obtain ⟨bs, hbs⟩ := ih fun z hz => h z (by simp [hz])
    exact ⟨b :: bs, by rw [List.mapM_cons, hb, hbs]; rfl⟩

theorem mapM_toInt64_spec (ws : List ℤ) (bs : List (List ℕ)) (h : ws.mapM toInt64 = some bs) :
    (∀ b ∈ bs, b.length = 8) ∧ bs.map ofInt64 = ws := by
  induction ws generalizing bs with
  | nil => cases h; simp
  | cons z ws ih =>
    rw [List.mapM_cons] at h
    cases hb : toInt64 z with
    | none => rw [hb] at h; cases h
    | some b =>
      cases hbs : ws.mapM toInt64 with
      | none => rw [hb, hbs] at h; cases h
      | some bs' =>
        rw [hb, hbs] at h
        cases h
        obtain ⟨h1, h2⟩ := toInt64_some hb
        obtain ⟨h3, h4⟩ := ih bs' hbs
        exact ⟨by simp [h1]; exact h3, by simp [h2, h4]⟩

theorem chunks_flatten (k : ℕ) (hk : 0 < k) (bs : List (List ℕ)) (h : ∀ b ∈ bs, b.length = k)
    (n : ℕ) (hn : bs.flatten.length ≤ n) : chunks k n bs.flatten = bs := by
  induction bs generalizing n with
  | nil => cases n <;> simp [chunks]
  | cons b bs ih =>
    have hb := h b (by simp)
    rw [List.flatten_cons, List.length_append] at hn
    cases n with
    | zero => omega
    | succ n =>
      rw [List.flatten_cons]
      have hne : b ++ bs.flatten ≠ [] := by
        intro e
        have := congrArg List.length e
        rw [List.length_append, List.length_nil] at this
        omega
      simp only [chunks]
      rw [if_neg (by rw [List.length_append]; rintro (h | h); · omega
                     · exact hne h)]
      rw [List.take_left' hb, List.drop_left' hb, ih (fun b hb => h b (by simp [hb])) n (by omega)]

theorem chunks_keys (ks : List ℕ) (h : ∀ x ∈ ks, x < 2 ^ 32) :
    (chunks 4 (ks.flatMap (toBytes 4)).length (ks.flatMap (toBytes 4))).map ofBytes = ks := by
  rw [List.flatMap_def, chunks_flatten 4 (by norm_num) _ _ _ (le_refl _)]
  · rw [List.map_map]
    conv_rhs => rw [← List.map_id ks]
    refine List.map_congr_left fun x hx => ofBytes_toBytes 4 x ?_
    have := h x hx
    norm_num at *
    omega
  · intro b hb
    obtain ⟨x, -, rfl⟩ := List.mem_map.mp hb
    exact toBytes_length _ _

theorem chunks_words (ws : List ℤ) (bs : List (List ℕ)) (h : ws.mapM toInt64 = some bs) :
    (chunks 8 bs.flatten.length bs.flatten).map ofInt64 = ws := by
  obtain ⟨h1, h2⟩ := mapM_toInt64_spec ws bs h
  rw [chunks_flatten 8 (by norm_num) bs h1 _ (le_refl _), h2]

end Neps.Seed.Files
