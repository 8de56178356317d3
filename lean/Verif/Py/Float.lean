import Mathlib.Tactic.Linarith
import Mathlib.Tactic.Ring
import Mathlib.Tactic.FieldSimp
import Mathlib.Tactic.Positivity
import Mathlib.Algebra.Order.Field.Rat
import Mathlib.Algebra.Order.Field.Power
import Mathlib.Data.Rat.Cast.Order
import Verif.Py.Text

/-!
# Python floats: IEEE 754 rounding

Part of the modelled Python runtime (`float(x)`, `int / int`, `float * float`, `float / float`): binary64 with
round-half-even.  Signed zeros are not distinguished.
-/
namespace Verif.Py

/-- `n / d` rounded to the nearest integer, ties to even (`d > 0`). -/
def rhe (n : Int) (d : Nat) : Int :=
  if 2 * (n % d) < d then n / d
  else if (d : Int) < 2 * (n % d) then n / d + 1
  else if n / d % 2 = 0 then n / d else n / d + 1

theorem rhe_error (n : Int) (d : Nat) (hd : 0 < d) : |rhe n d * d - n| * 2 ≤ d := by
  have h1 := Int.mul_ediv_add_emod n d
  have h2 := Int.emod_nonneg n (show (d : Int) ≠ 0 by omega)
  have h3 := Int.emod_lt_of_pos n (show (0 : Int) < d by omega)
  unfold rhe
  generalize n % (d : Int) = r at *
  generalize n / (d : Int) = q at *
  have e1 : q * d - n = -r := by rw [← h1]; ring
  have e2 : (q + 1) * d - n = d - r := by rw [← h1]; ring
  split
  · rw [e1, abs_neg, abs_of_nonneg h2]; omega
  · split
    · rw [e2, abs_of_nonneg (by omega)]; omega
    · split
      · rw [e1, abs_neg, abs_of_nonneg h2]; omega
      · rw [e2, abs_of_nonneg (by omega)]; omega

/-- The nearest integer is found. -/
theorem rhe_unique (n m : Int) (d : Nat) (hd : 0 < d) (h : |m * d - n| * 2 < d) : rhe n d = m := by
  have h1 := rhe_error n d hd
  generalize rhe n d = r at *
  have h2 : |(r - m) * d| < d := by
    have : (r - m) * (d : Int) = (r * d - n) - (m * d - n) := by ring
    rw [this]
    have := abs_sub (r * d - n) (m * d - n)
    omega
  have hd' : (0 : Int) < d := by omega
  have h3 := abs_lt.1 h2
  have h4 : r - m < 1 := by
    by_contra hc
    have : (d : Int) ≤ (r - m) * d := by nlinarith
    omega
  have h5 : -1 < r - m := by
    by_contra hc
    have : (r - m) * (d : Int) ≤ -d := by nlinarith
    omega
  omega

theorem rhe_exact (m : Int) (d : Nat) (hd : 0 < d) : rhe (m * d) d = m :=
  rhe_unique _ _ _ hd (by simp; omega)

/-- `n / d < 2 ^ e` for natural numbers. -/
def ltPow (n d : Nat) (e : Int) : Bool :=
  if 0 ≤ e then decide (n < d * 2 ^ e.toNat) else decide (n * 2 ^ (-e).toNat < d)

/-- Exponent of the last place of the double nearest to `n / d`. -/
def ulpExp (n d : Nat) : Int :=
  let s0 : Int := (Nat.log2 n : Int) - Nat.log2 d - 52
  max (if ltPow n d (s0 + 52) then s0 - 1 else s0) (-1074)

/-- `m * 2 ^ s` as a float, infinite from `2 ^ 1024` on. -/
def mkFloat (m s : Int) : PyFloat :=
  if 0 ≤ s then (if 2 ^ 1024 ≤ m.natAbs * 2 ^ s.toNat then .inf (decide (m < 0)) else .fin (m * 2 ^ s.toNat) 0)
  else .fin m (-s).toNat

/-- The mantissa: `q / 2 ^ s` rounded. -/
def mantissa (q : Rat) (s : Int) : Int :=
  if 0 ≤ s then rhe q.num (q.den * 2 ^ s.toNat) else rhe (q.num * 2 ^ (-s).toNat) q.den

/-- The double nearest to `q`, ties to even. -/
def ofRat (q : Rat) : PyFloat :=
  if q = 0 then .fin 0 0 else mkFloat (mantissa q (ulpExp q.num.natAbs q.den)) (ulpExp q.num.natAbs q.den)

/-- The value of a finite float. -/
def floatVal : PyFloat → Option Rat
  | .fin n k => some (mkRat n (2 ^ k))
  | _ => none

theorem mkRat_pow (n : Int) (k : Nat) : (mkRat n (2 ^ k) : ℚ) = n / 2 ^ k := by
  rw [Rat.mkRat_eq_div]; push_cast; rfl

theorem ltPow_iff (n d : Nat) (e : Int) (hd : 0 < d) : ltPow n d e = true ↔ (n : ℚ) / d < 2 ^ e := by
  have hd' : (0 : ℚ) < d := by exact_mod_cast hd
  unfold ltPow
  split
  · rename_i he
    obtain ⟨k, rfl⟩ := Int.eq_ofNat_of_zero_le he
    rw [decide_eq_true_iff, div_lt_iff₀ hd', zpow_natCast, mul_comm]
    constructor
    · intro h; exact_mod_cast h
    · intro h; exact_mod_cast h
  · rename_i he
    obtain ⟨k, hk⟩ := Int.eq_ofNat_of_zero_le (show 0 ≤ -e by omega)
    rw [hk]
    have he' : e = -(k : Int) := by omega
    subst he'
    rw [decide_eq_true_iff, div_lt_iff₀ hd', zpow_neg, zpow_natCast, inv_mul_eq_div, lt_div_iff₀ (by positivity)]
    constructor
    · intro h; exact_mod_cast h
    · intro h; exact_mod_cast h

theorem log2_le (n : Nat) (h : n ≠ 0) : (2 : ℚ) ^ (Nat.log2 n : Int) ≤ n := by
  rw [zpow_natCast]
  exact_mod_cast Nat.log2_self_le h

theorem lt_log2 (n : Nat) : (n : ℚ) < 2 ^ ((Nat.log2 n : Int) + 1) := by
  have := @Nat.lt_log2_self n
  have h : (n : ℚ) < 2 ^ (Nat.log2 n + 1) := by exact_mod_cast this
  rw [show ((Nat.log2 n : Int) + 1) = ((Nat.log2 n + 1 : Nat) : Int) by push_cast; rfl, zpow_natCast]
  exact h

theorem ulpExp_le (n d : Nat) (hn : n ≠ 0) (hd : 0 < d) (E : Int) (hE : -1021 ≤ E) (h : (n : ℚ) / d < 2 ^ E) :
    ulpExp n d ≤ E - 53 := by
  have hd' : (0 : ℚ) < d := by exact_mod_cast hd
  unfold ulpExp
  simp only
  refine max_le ?_ (by omega)
  have key : ∀ s : Int, (2 : ℚ) ^ (s + 52) ≤ n / d → s ≤ E - 53 := by
    intro s hs
    have := lt_of_le_of_lt hs h
    have := (zpow_lt_zpow_iff_right₀ (by norm_num : (1 : ℚ) < 2)).1 this
    omega
  split
  · apply key
    have h1 := log2_le n hn
    have h2 := lt_log2 d
    rw [le_div_iff₀ hd']
    have h3 : (2 : ℚ) ^ ((Nat.log2 n : Int) - Nat.log2 d - 52 - 1 + 52) * 2 ^ ((Nat.log2 d : Int) + 1) = 2 ^ (Nat.log2 n : Int) := by
      rw [← zpow_add₀ (by norm_num)]
      congr 1
      ring
    have h4 : (0 : ℚ) < 2 ^ ((Nat.log2 n : Int) - Nat.log2 d - 52 - 1 + 52) := by positivity
    nlinarith
  · rename_i hlt
    apply key
    have := mt (ltPow_iff n d _ hd).2 hlt
    exact not_lt.1 this

/-- The mantissa error is at most half a unit. -/
theorem mantissa_error (q : Rat) (s : Int) : |(mantissa q s : ℚ) * 2 ^ s - q| ≤ 2 ^ s / 2 := by
  have hden : 0 < q.den := q.den_pos
  have hq : (q.num : ℚ) / q.den = q := Rat.num_div_den q
  have hden' : (0 : ℚ) < q.den := by exact_mod_cast hden
  unfold mantissa
  split
  · rename_i hs
    obtain ⟨k, rfl⟩ := Int.eq_ofNat_of_zero_le hs
    have h1 := rhe_error q.num (q.den * 2 ^ k) (by positivity)
    simp only [Int.toNat_natCast, zpow_natCast] at *
    generalize rhe q.num (q.den * 2 ^ k) = r at *
    have h2 : |(r : ℚ) * (q.den * 2 ^ k) - q.num| * 2 ≤ q.den * 2 ^ k := by exact_mod_cast h1
    have h3 : (r : ℚ) * (q.den * 2 ^ k) - q.num = (r * 2 ^ k - q) * q.den := by
      conv_lhs => rw [← Rat.mul_den_eq_num q]
      ring
    rw [h3, abs_mul, abs_of_pos hden'] at h2
    have : |(r : ℚ) * 2 ^ k - q| * 2 ≤ 2 ^ k := by
      by_contra hc
      nlinarith
    linarith
  · rename_i hs
    obtain ⟨k, hk⟩ := Int.eq_ofNat_of_zero_le (show 0 ≤ -s by omega)
    have he : s = -(k : Int) := by omega
    subst he
    have h1 := rhe_error (q.num * 2 ^ k) q.den hden
    simp only [neg_neg, Int.toNat_natCast, zpow_neg, zpow_natCast] at *
    generalize rhe (q.num * 2 ^ k) q.den = r at *
    have h2 : |(r : ℚ) * q.den - q.num * 2 ^ k| * 2 ≤ q.den := by exact_mod_cast h1
    have h3 : (r : ℚ) * q.den - q.num * 2 ^ k = (r * (2 ^ k)⁻¹ - q) * (q.den * 2 ^ k) := by
      conv_lhs => rw [← Rat.mul_den_eq_num q]
      have : (2 : ℚ) ^ k ≠ 0 := by positivity
      field_simp
    rw [h3, abs_mul, abs_of_pos (by positivity : (0 : ℚ) < q.den * 2 ^ k)] at h2
    have h4 : |(r : ℚ) * (2 ^ k)⁻¹ - q| * 2 * 2 ^ k ≤ 1 := by
      by_contra hc
      nlinarith
    rw [le_div_iff₀ (by norm_num), inv_eq_one_div, le_div_iff₀ (by positivity)]
    rw [inv_eq_one_div] at h4
    exact h4

theorem abs_num_den (q : Rat) : ((q.num.natAbs : ℚ)) / q.den = |q| := by
  conv_rhs => rw [← Rat.num_div_den q, abs_div]
  rw [Nat.cast_natAbs, abs_of_pos (by exact_mod_cast q.den_pos : (0 : ℚ) < q.den)]
  push_cast
  rfl

theorem mkFloat_val (m s : Int) (h : |(m : ℚ) * 2 ^ s| < 2 ^ (1024 : Int)) : floatVal (mkFloat m s) = some ((m : ℚ) * 2 ^ s) := by
  unfold mkFloat
  split
  · rename_i hs
    obtain ⟨k, rfl⟩ := Int.eq_ofNat_of_zero_le hs
    simp only [Int.toNat_natCast, zpow_natCast] at *
    rw [if_neg]
    · simp [floatVal, Rat.mkRat_one]
    · intro hc
      have h2 : ((2 : ℚ) ^ 1024) ≤ m.natAbs * 2 ^ k := by exact_mod_cast hc
      rw [abs_mul, abs_of_pos (by positivity : (0 : ℚ) < 2 ^ k)] at h
      rw [Nat.cast_natAbs] at h2
      push_cast at h2
      have h3 : (2 : ℚ) ^ (1024 : Int) = 2 ^ 1024 := zpow_ofNat 2 1024
      rw [h3] at h
      exact absurd h (not_lt.2 h2)
  · rename_i hs
    obtain ⟨k, hk⟩ := Int.eq_ofNat_of_zero_le (show 0 ≤ -s by omega)
    have he : s = -(k : Int) := by omega
    subst he
    simp only [neg_neg, Int.toNat_natCast, zpow_neg, zpow_natCast, floatVal]
    rw [mkRat_pow, div_eq_mul_inv]

/-- **Rounding error.**  Below `2 ^ E` a double is off by at most `2 ^ (E - 54)`. -/
theorem ofRat_error (q : Rat) (E : Int) (h1 : -1021 ≤ E) (h2 : E ≤ 1023) (hq : |q| < 2 ^ E) :
    ∃ x, floatVal (ofRat q) = some x ∧ |x - q| ≤ 2 ^ (E - 54) := by
  by_cases h0 : q = 0
  · subst h0
    refine ⟨0, by simp [ofRat, floatVal], ?_⟩
    simp
    positivity
  · have hn : q.num.natAbs ≠ 0 := by
      intro h; exact h0 (Rat.num_eq_zero.1 (Int.natAbs_eq_zero.1 h))
    have hs := ulpExp_le q.num.natAbs q.den hn q.den_pos E h1 (by rw [abs_num_den]; exact hq)
    rw [ofRat, if_neg h0]
    generalize ulpExp q.num.natAbs q.den = s at *
    have herr := mantissa_error q s
    have hpow : (2 : ℚ) ^ s / 2 ≤ 2 ^ (E - 54) := by
      have : (2 : ℚ) ^ s / 2 = 2 ^ (s - 1) := by rw [zpow_sub_one₀ (by norm_num)]; ring
      rw [this]
      exact zpow_le_zpow_right₀ (by norm_num) (by omega)
    have hle := le_trans herr hpow
    refine ⟨_, mkFloat_val _ _ ?_, hle⟩
    have h3 : |(mantissa q s : ℚ) * 2 ^ s| ≤ |q| + 2 ^ (E - 54) := by
      have := abs_sub_abs_le_abs_sub ((mantissa q s : ℚ) * 2 ^ s) q
      linarith
    have h4 : (2 : ℚ) ^ (E - 54) ≤ 2 ^ E := zpow_le_zpow_right₀ (by norm_num) (by omega)
    have h5 : (2 : ℚ) ^ (1024 : Int) = 2 ^ (1023 : Int) + 2 ^ (1023 : Int) := by
      rw [show (1024 : Int) = 1023 + 1 by norm_num, zpow_add_one₀ (by norm_num)]; ring
    have h6 : (2 : ℚ) ^ E ≤ 2 ^ (1023 : Int) := zpow_le_zpow_right₀ (by norm_num) h2
    generalize (2 : ℚ) ^ (1023 : Int) = P at *
    generalize (2 : ℚ) ^ (1024 : Int) = Q at *
    generalize (2 : ℚ) ^ E = R at *
    generalize (2 : ℚ) ^ (E - 54) = T at *
    linarith

/-- Integers below `2 ^ 53` are exact. -/
theorem ofRat_int (n : Int) (h : n.natAbs < 2 ^ 53) : floatVal (ofRat (n : ℚ)) = some (n : ℚ) := by
  by_cases h0 : n = 0
  · subst h0; rfl
  · have hq : ((n : ℚ)) ≠ 0 := by exact_mod_cast h0
    have habs : |(n : ℚ)| < 2 ^ (53 : Int) := by
      have : ((n.natAbs : ℚ)) < 2 ^ 53 := by exact_mod_cast h
      rw [Nat.cast_natAbs] at this
      push_cast at this
      have h3 : (2 : ℚ) ^ (53 : Int) = 2 ^ 53 := by norm_cast
      rw [h3]; exact this
    have hs := ulpExp_le (n : ℚ).num.natAbs (n : ℚ).den (by simpa using h0) (n : ℚ).den_pos 53 (by norm_num)
      (by rw [abs_num_den]; exact habs)
    rw [ofRat, if_neg hq]
    generalize ulpExp (n : ℚ).num.natAbs (n : ℚ).den = s at *
    have hval : (mantissa (n : ℚ) s : ℚ) * 2 ^ s = n := by
      obtain ⟨k, hk⟩ := Int.eq_ofNat_of_zero_le (show 0 ≤ -s by omega)
      have he : s = -(k : Int) := by omega
      subst he
      unfold mantissa
      split
      · rename_i hk0
        have : k = 0 := by omega
        subst this
        have := rhe_exact n 1 (by norm_num)
        simp only [Nat.cast_one, mul_one] at this
        simp [this]
      · simp only [neg_neg, Int.toNat_natCast, Rat.num_intCast, Rat.den_intCast, zpow_neg, zpow_natCast]
        have := rhe_exact (n * 2 ^ k) 1 (by norm_num)
        simp only [Nat.cast_one, mul_one] at this
        rw [this]
        push_cast
        field_simp
    rw [mkFloat_val, hval]
    rw [hval]
    have : (2 : ℚ) ^ (53 : Int) ≤ 2 ^ (1024 : Int) := zpow_le_zpow_right₀ (by norm_num) (by norm_num)
    exact lt_of_lt_of_le habs this

/-! Sanity: `0.1`, `1/3`, `43/1000 / 0.001` in double arithmetic. -/
example : ofRat (1 / 10) = .fin 7205759403792794 56 := by decide +kernel
example : ofRat (1 / 3) = .fin 6004799503160661 54 := by decide +kernel

end Verif.Py
