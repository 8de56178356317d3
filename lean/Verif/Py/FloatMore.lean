import Verif.Py.Number

/-!
# More about double rounding: doubles are fixed points, relative error
-/
namespace Verif.Py

theorem pow2_pos (e : Int) : (0 : ℚ) < 2 ^ e := by positivity

/-- `ulpExp` is not too small. -/
theorem lt_ulp (n d : Nat) (hn : n ≠ 0) (hd : 0 < d) : (n : ℚ) / d < 2 ^ (ulpExp n d + 53) := by
  have hd' : (0 : ℚ) < d := by exact_mod_cast hd
  have mono : ∀ a b : Int, a ≤ b → (2 : ℚ) ^ a ≤ 2 ^ b := fun a b h => zpow_le_zpow_right₀ (by norm_num) h
  unfold ulpExp
  simp only
  refine lt_of_lt_of_le ?_ (mono _ _ (Int.add_le_add_right (le_max_left _ _) 53))
  split
  · rename_i h
    have := (ltPow_iff n d _ hd).1 h
    refine lt_of_lt_of_le this (mono _ _ (by omega))
  · rw [div_lt_iff₀ hd']
    have h1 := lt_log2 n
    have h2 := log2_le d (by omega)
    have h3 : (2 : ℚ) ^ ((Nat.log2 n : Int) - Nat.log2 d - 52 + 53) * 2 ^ (Nat.log2 d : Int) = 2 ^ ((Nat.log2 n : Int) + 1) := by
      rw [← zpow_add₀ (by norm_num)]
      congr 1
      ring
    have h4 := pow2_pos ((Nat.log2 n : Int) - Nat.log2 d - 52 + 53)
    nlinarith

theorem ulp_ge (n d : Nat) : -1074 ≤ ulpExp n d := by
  unfold ulpExp; exact le_max_right _ _

/-- Above the smallest exponent `ulpExp` is not too large. -/
theorem ulp_le (n d : Nat) (hn : n ≠ 0) (hd : 0 < d) (h : -1074 < ulpExp n d) : (2 : ℚ) ^ (ulpExp n d + 52) ≤ n / d := by
  by_contra hc
  have := ulpExp_le n d hn hd (ulpExp n d + 52) (by omega) (not_le.1 hc)
  omega

/-- A multiple of the unit in the last place is not changed by rounding. -/
theorem mantissa_exact (q : Rat) (s k : Int) (h : q = k * 2 ^ s) : mantissa q s = k := by
  have h1 := mantissa_error q s
  generalize mantissa q s = m at *
  rw [h] at h1
  have h5 := pow2_pos s
  have h3 : |((m : ℚ) - k)| * 2 ^ s ≤ 2 ^ s / 2 := by
    have h2 : ((m : ℚ) - k) * 2 ^ s = (m : ℚ) * 2 ^ s - k * 2 ^ s := by ring
    rw [← h2, abs_mul, abs_of_pos h5] at h1
    exact h1
  have h4 : |((m : ℚ) - k)| < 1 := by
    by_contra hc
    nlinarith
  have h6 : |(m - k : Int)| < 1 := by
    have : ((|(m - k : Int)| : Int) : ℚ) < 1 := by push_cast; exact h4
    exact_mod_cast this
  have := Int.abs_lt_one_iff.1 h6
  omega

/-- A number with at most 53 significant bits, not too small and not too large, is a double. -/
theorem ofRat_repr (m s : Int) (hm : m.natAbs ≤ 2 ^ 53) (hs : -1074 ≤ s) (hb : |(m : ℚ) * 2 ^ s| < 2 ^ (1024 : Int)) :
    floatVal (ofRat ((m : ℚ) * 2 ^ s)) = some ((m : ℚ) * 2 ^ s) := by
  by_cases h0 : (m : ℚ) * 2 ^ s = 0
  · rw [h0]; rfl
  generalize hq : (m : ℚ) * 2 ^ s = q at *
  have hn : q.num.natAbs ≠ 0 := by
    intro h; exact h0 (Rat.num_eq_zero.1 (Int.natAbs_eq_zero.1 h))
  rw [ofRat, if_neg h0]
  have hle : ulpExp q.num.natAbs q.den ≤ s ∨ (m.natAbs = 2 ^ 53 ∧ ulpExp q.num.natAbs q.den = s + 1) := by
    have habs : |q| = (m.natAbs : ℚ) * 2 ^ s := by
      rw [← hq, abs_mul, abs_of_pos (pow2_pos s), Nat.cast_natAbs]; push_cast; rfl
    by_cases hlt : m.natAbs = 2 ^ 53
    · have : |q| < 2 ^ (s + 54) := by
        rw [habs, hlt, show s + 54 = 54 + s by ring, zpow_add₀ (by norm_num)]
        have h54 : (2 : ℚ) ^ (54 : Int) = 2 ^ 54 := zpow_ofNat 2 54
        rw [h54]
        have := pow2_pos s
        push_cast
        nlinarith
      have h1 := ulpExp_le q.num.natAbs q.den hn q.den_pos (s + 54) (by omega) (by rw [abs_num_den]; exact this)
      by_cases h2 : ulpExp q.num.natAbs q.den ≤ s
      · exact Or.inl h2
      · exact Or.inr ⟨hlt, by omega⟩
    · left
      have : |q| < 2 ^ (s + 53) := by
        rw [habs, show s + 53 = 53 + s by ring, zpow_add₀ (by norm_num)]
        have h53 : (2 : ℚ) ^ (53 : Int) = 2 ^ 53 := zpow_ofNat 2 53
        rw [h53]
        have h6 := pow2_pos s
        have h7 : ((m.natAbs : ℚ)) < 2 ^ 53 := by
          have : m.natAbs < 2 ^ 53 := by omega
          exact_mod_cast this
        nlinarith
      have h1 := ulpExp_le q.num.natAbs q.den hn q.den_pos (s + 53) (by omega) (by rw [abs_num_den]; exact this)
      omega
  generalize ulpExp q.num.natAbs q.den = u at *
  obtain ⟨k, hk⟩ : ∃ k : Int, q = k * 2 ^ u := by
    rcases hle with h | ⟨h1, h2⟩
    · obtain ⟨j, hj⟩ := Int.eq_ofNat_of_zero_le (show 0 ≤ s - u by omega)
      refine ⟨m * 2 ^ j, ?_⟩
      rw [← hq]
      push_cast
      rw [show s = (j : Int) + u by omega, zpow_add₀ (by norm_num), zpow_natCast]
      ring
    · have : ∃ k, m = 2 * k := by
        rcases Int.natAbs_eq m with h | h
        · exact ⟨2 ^ 52, by rw [h, h1]; norm_num⟩
        · exact ⟨-2 ^ 52, by rw [h, h1]; norm_num⟩
      obtain ⟨k, hk⟩ := this
      refine ⟨k, ?_⟩
      rw [← hq, hk, h2, zpow_add_one₀ (by norm_num)]
      push_cast
      ring
  rw [mantissa_exact q u k hk, mkFloat_val _ _ (by rw [← hk]; exact hb), ← hk]

/-- Rounding twice is rounding once: a double is its own nearest double. -/
theorem ofRat_idem {q x : Rat} (h : floatVal (ofRat q) = some x) : floatVal (ofRat x) = some x := by
  by_cases h0 : q = 0
  · subst h0
    simp only [ofRat, if_true, floatVal, Option.some.injEq] at h
    subst h
    rfl
  have hn : q.num.natAbs ≠ 0 := by
    intro h; exact h0 (Rat.num_eq_zero.1 (Int.natAbs_eq_zero.1 h))
  rw [ofRat, if_neg h0] at h
  have h1 := lt_ulp q.num.natAbs q.den hn q.den_pos
  have h2 := ulp_ge q.num.natAbs q.den
  generalize ulpExp q.num.natAbs q.den = s at *
  have herr := mantissa_error q s
  rw [abs_num_den] at h1
  have hs := pow2_pos s
  have hm : (mantissa q s).natAbs ≤ 2 ^ 53 := by
    have h3 : |(mantissa q s : ℚ) * 2 ^ s| < (2 ^ 53 + 1) * 2 ^ s := by
      have := abs_sub_abs_le_abs_sub ((mantissa q s : ℚ) * 2 ^ s) q
      rw [show s + 53 = 53 + s by ring, zpow_add₀ (by norm_num), show (2 : ℚ) ^ (53 : Int) = 2 ^ 53 from zpow_ofNat 2 53] at h1
      linarith
    rw [abs_mul, abs_of_pos hs] at h3
    have h4 : |(mantissa q s : ℚ)| < 2 ^ 53 + 1 := lt_of_mul_lt_mul_right h3 (le_of_lt hs)
    have h5 : ((mantissa q s).natAbs : ℚ) < 2 ^ 53 + 1 := by rw [Nat.cast_natAbs]; push_cast; exact h4
    have h6 : (mantissa q s).natAbs < 2 ^ 53 + 1 := by exact_mod_cast h5
    omega
  have hfin : |(mantissa q s : ℚ) * 2 ^ s| < 2 ^ (1024 : Int) ∧ x = (mantissa q s : ℚ) * 2 ^ s := by
    unfold mkFloat at h
    split at h
    · rename_i hs0
      obtain ⟨k, rfl⟩ := Int.eq_ofNat_of_zero_le hs0
      split at h
      · cases h
      · rename_i hlt
        simp only [floatVal, Option.some.injEq, pow_zero, Rat.mkRat_one] at h
        simp only [Int.toNat_natCast] at *
        refine ⟨?_, by rw [← h]; push_cast; rw [zpow_natCast]⟩
        rw [abs_mul, zpow_natCast, abs_of_pos (by positivity : (0 : ℚ) < 2 ^ k), show (2 : ℚ) ^ (1024 : Int) = 2 ^ 1024 from zpow_ofNat 2 1024]
        have : ((mantissa q k).natAbs * 2 ^ k : Nat) < 2 ^ 1024 := by omega
        have h5 : ((mantissa q k).natAbs : ℚ) * 2 ^ k < 2 ^ 1024 := by exact_mod_cast this
        rw [Nat.cast_natAbs] at h5
        push_cast at h5
        exact h5
    · rename_i hs0
      obtain ⟨k, hk⟩ := Int.eq_ofNat_of_zero_le (show 0 ≤ -s by omega)
      have he : s = -(k : Int) := by omega
      subst he
      simp only [neg_neg, Int.toNat_natCast, floatVal, Option.some.injEq] at h
      rw [mkRat_pow] at h
      refine ⟨?_, by rw [← h, zpow_neg, zpow_natCast, div_eq_mul_inv]⟩
      rw [abs_mul, abs_of_pos hs]
      have h5 : |(mantissa q (-(k:Int)) : ℚ)| ≤ 2 ^ 53 := by
        have : ((mantissa q (-(k:Int))).natAbs : ℚ) ≤ 2 ^ 53 := by exact_mod_cast hm
        rw [Nat.cast_natAbs] at this; push_cast at this; exact this
      have h6 : (2 : ℚ) ^ (-(k : Int)) ≤ 1 := zpow_le_one_of_nonpos₀ (by norm_num) (by omega)
      have h7 : (2 : ℚ) ^ 53 < 2 ^ (1024 : Int) := by
        rw [← zpow_natCast]; exact zpow_lt_zpow_right₀ (by norm_num) (by norm_num)
      generalize (2 : ℚ) ^ (1024 : Int) = Q at *
      nlinarith [abs_nonneg (mantissa q (-(k:Int)) : ℚ)]
  rw [hfin.2]
  exact ofRat_repr _ _ hm h2 hfin.1

/-- **Relative error** of rounding a number that is neither tiny nor huge: at most `2 ^ -53`. -/
theorem ofRat_rel (q : Rat) (h1 : (2 : ℚ) ^ (-1000 : Int) ≤ |q|) (h2 : |q| < 2 ^ (1000 : Int)) :
    ∃ x, floatVal (ofRat q) = some x ∧ |x - q| * 2 ^ 53 ≤ |q| := by
  have h0 : q ≠ 0 := by
    rintro rfl
    rw [abs_zero] at h1
    exact absurd (pow2_pos (-1000)) (not_lt.2 h1)
  have hn : q.num.natAbs ≠ 0 := by
    intro h; exact h0 (Rat.num_eq_zero.1 (Int.natAbs_eq_zero.1 h))
  have hlt := lt_ulp q.num.natAbs q.den hn q.den_pos
  rw [abs_num_den] at hlt
  have hge : -1074 < ulpExp q.num.natAbs q.den := by
    have := lt_of_le_of_lt h1 hlt
    have := (zpow_lt_zpow_iff_right₀ (by norm_num : (1 : ℚ) < 2)).1 this
    omega
  have hle := ulp_le q.num.natAbs q.den hn q.den_pos hge
  rw [abs_num_den] at hle
  rw [ofRat, if_neg h0]
  generalize ulpExp q.num.natAbs q.den = s at *
  have herr := mantissa_error q s
  have hs := pow2_pos s
  have hse : (2 : ℚ) ^ (s + 52) = 2 ^ 52 * 2 ^ s := by
    rw [show s + 52 = 52 + s by ring, zpow_add₀ (by norm_num), show (2 : ℚ) ^ (52 : Int) = 2 ^ 52 from zpow_ofNat 2 52]
  rw [hse] at hle
  have hrel : |(mantissa q s : ℚ) * 2 ^ s - q| * 2 ^ 53 ≤ |q| := by linarith
  refine ⟨_, mkFloat_val _ _ ?_, hrel⟩
  have h3 := abs_sub_abs_le_abs_sub ((mantissa q s : ℚ) * 2 ^ s) q
  have h5 : (2 : ℚ) ^ (1000 : Int) * 2 ≤ 2 ^ (1024 : Int) := by
    rw [← zpow_add_one₀ (by norm_num)]; exact zpow_le_zpow_right₀ (by norm_num) (by norm_num)
  generalize (2 : ℚ) ^ (1024 : Int) = Q at *
  generalize (2 : ℚ) ^ (1000 : Int) = P at *
  have h6 : |(mantissa q s : ℚ) * 2 ^ s - q| ≤ |q| := by
    have := abs_nonneg ((mantissa q s : ℚ) * 2 ^ s - q)
    nlinarith
  linarith

end Verif.Py
