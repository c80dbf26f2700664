import Verif.Float.Slopes
import Mathlib.Analysis.SpecialFunctions.Sqrt
import Mathlib.Data.Nat.Sqrt

/-!
# A square root in `float64`

IEEE 754 asks for the nearest double to the real square root.  The theorems only use an error of at most
`2^-52`, relative; here is a computable function with that property.
-/

namespace Dany.Float

/-- `s` computes square roots with a relative error of at most `2^-52`, for every number not below the least
positive double. -/
def SqrtOK (s : ℚ → ℚ) : Prop :=
  ∀ x : ℚ, 2 ^ (-1074 : ℤ) ≤ x → |((s x : ℚ) : ℝ) - √(x : ℝ)| ≤ √(x : ℝ) / 2 ^ 52

/-- 60 or 61 bits of the square root -/
def isqrt (x : ℚ) : ℚ :=
  if x ≤ 0 then 0
  else
    let e := Int.log 2 x / 2 - 60
    (Nat.sqrt ⌊x / 4 ^ e⌋₊ : ℚ) * 2 ^ e

/-- the square root of the witnesses -/
def sqrt64 (x : ℚ) : ℚ := rnd64 (isqrt x)

theorem four_zpow (e : ℤ) : (4 : ℚ) ^ e = 2 ^ e * 2 ^ e := by
  rw [← mul_zpow]; norm_num

theorem isqrt_bounds {x : ℚ} (hx : 0 < x) : ∃ e : ℤ, ∃ r : ℕ, isqrt x = r * 2 ^ e ∧ 2 ^ 60 ≤ r ∧
    isqrt x ^ 2 ≤ x ∧ x < ((r + 1) * 2 ^ e) ^ 2 := by
  set E := Int.log 2 x with hE
  set e := E / 2 - 60 with he
  have h1 : (2 : ℚ) ^ E ≤ x := by
    have := Int.zpow_log_le_self (b := 2) (by norm_num) hx; exact_mod_cast this
  set y := x / 4 ^ e with hy
  have h4 : (0 : ℚ) < 4 ^ e := by positivity
  have hyx : x = y * 4 ^ e := by rw [hy]; field_simp
  have hyb : (2 : ℚ) ^ 120 ≤ y := by
    rw [hy, le_div_iff₀ h4]
    refine le_trans ?_ h1
    rw [four_zpow, ← zpow_natCast, ← zpow_add₀ (by norm_num), ← zpow_add₀ (by norm_num)]
    refine zpow_le_zpow_right₀ (by norm_num) ?_
    have := Int.mul_ediv_self_le (x := E) (k := 2) (by norm_num)
    omega
  have hy0 : 0 ≤ y := le_trans (by positivity) hyb
  have hn : 2 ^ 120 ≤ ⌊y⌋₊ := by rw [Nat.le_floor_iff hy0]; exact_mod_cast hyb
  set n := ⌊y⌋₊ with hn'
  set r := Nat.sqrt n with hr
  have hi : isqrt x = r * 2 ^ e := by
    unfold isqrt; rw [if_neg (not_le.2 hx)]
  have hr1 : r * r ≤ n := Nat.sqrt_le n
  have hr2 : n < (r + 1) * (r + 1) := Nat.lt_succ_sqrt n
  refine ⟨e, r, hi, ?_, ?_, ?_⟩
  · rw [hr, Nat.le_sqrt]; exact le_trans (by norm_num) hn
  · rw [hi, hyx, four_zpow]
    have a : ((r * r : ℕ) : ℚ) ≤ y := le_trans (by exact_mod_cast hr1) (Nat.floor_le hy0)
    have := mul_le_mul_of_nonneg_right a h4.le
    rw [four_zpow] at this
    push_cast at this
    calc _ = (r : ℚ) * r * (2 ^ e * 2 ^ e) := by ring
      _ ≤ _ := this
  · have a : y < (((r + 1) * (r + 1) : ℕ) : ℚ) := by
      refine lt_of_lt_of_le (Nat.lt_floor_add_one y) ?_
      exact_mod_cast hr2
    have := mul_lt_mul_of_pos_right a h4
    rw [← hyx, four_zpow] at this
    push_cast at this
    calc _ < _ := this
      _ = _ := by ring

theorem sqrt64_ok : SqrtOK sqrt64 := by
  intro x hx
  have hx0 : 0 < x := lt_of_lt_of_le (by positivity) hx
  obtain ⟨e, r, hi, hr, h1, h2⟩ := isqrt_bounds hx0
  have he : (0 : ℚ) < 2 ^ e := by positivity
  have hr' : (2 : ℚ) ^ 60 ≤ r := by exact_mod_cast hr
  have hi0 : 0 ≤ isqrt x := by rw [hi]; positivity
  -- the rounding
  have hlow : (2 : ℚ) ^ (-1022 : ℤ) ≤ |isqrt x| := by
    rw [abs_of_nonneg hi0]
    by_contra hc
    push Not at hc
    have h3 : (r + 1) * (2 : ℚ) ^ e ≤ 2 * isqrt x := by
      rw [hi]
      have : (1 : ℚ) ≤ r := le_trans (by norm_num) hr'
      nlinarith
    have h4 : (r + 1) * (2 : ℚ) ^ e ≤ 2 ^ (-1021 : ℤ) := by
      refine h3.trans ?_
      have : (2 : ℚ) ^ (-1021 : ℤ) = 2 * 2 ^ (-1022 : ℤ) := by
        rw [show (-1021 : ℤ) = 1 + -1022 by norm_num, zpow_add₀ (by norm_num), zpow_one]
      linarith
    have h5 : ((r + 1) * (2 : ℚ) ^ e) ^ 2 ≤ (2 ^ (-1021 : ℤ)) ^ 2 :=
      pow_le_pow_left₀ (by positivity) h4 2
    have h6 : ((2 : ℚ) ^ (-1021 : ℤ)) ^ 2 ≤ 2 ^ (-1074 : ℤ) := by
      rw [← zpow_natCast, ← zpow_mul]
      exact zpow_le_zpow_right₀ (by norm_num) (by norm_num)
    linarith
  have hrnd : |sqrt64 x - isqrt x| ≤ isqrt x / 2 ^ 53 := by
    have := rel_err (p := 53) (by norm_num) rnd64_nearest hlow
    rwa [abs_of_nonneg hi0] at this
  -- in the reals
  have hs0 : 0 ≤ √(x : ℝ) := Real.sqrt_nonneg _
  have b1 : ((isqrt x : ℚ) : ℝ) ≤ √(x : ℝ) := by
    refine Real.le_sqrt_of_sq_le ?_
    exact_mod_cast h1
  have b2 : √(x : ℝ) ≤ ((isqrt x + isqrt x / 2 ^ 60 : ℚ) : ℝ) := by
    have c : (r + 1) * (2 : ℚ) ^ e ≤ isqrt x + isqrt x / 2 ^ 60 := by
      rw [hi]
      have : (2 : ℚ) ^ e ≤ r * 2 ^ e / 2 ^ 60 := by
        rw [le_div_iff₀ (by positivity)]; nlinarith
      linarith
    refine Real.sqrt_le_iff.2 ⟨by exact_mod_cast (by positivity : (0 : ℚ) ≤ isqrt x + isqrt x / 2 ^ 60), ?_⟩
    have c2 : x ≤ (isqrt x + isqrt x / 2 ^ 60) ^ 2 :=
      h2.le.trans (pow_le_pow_left₀ (by positivity) c 2)
    exact_mod_cast c2
  have hrnd' : |((sqrt64 x : ℚ) : ℝ) - ((isqrt x : ℚ) : ℝ)| ≤ ((isqrt x : ℚ) : ℝ) / 2 ^ 53 := by
    exact_mod_cast hrnd
  push_cast at b2
  have hi0' : (0 : ℝ) ≤ ((isqrt x : ℚ) : ℝ) := by exact_mod_cast hi0
  generalize ((isqrt x : ℚ) : ℝ) = i at *
  generalize √(x : ℝ) = s at *
  generalize ((sqrt64 x : ℚ) : ℝ) = q at *
  rw [abs_le] at hrnd' ⊢
  have : i / 2 ^ 60 ≤ i / 2 ^ 53 := by
    refine div_le_div_of_nonneg_left hi0' (by positivity) (by norm_num)
  have : i / 2 ^ 53 + i / 2 ^ 53 = i / 2 ^ 52 := by ring
  have : i / 2 ^ 52 ≤ s / 2 ^ 52 := by
    refine div_le_div_of_nonneg_right b1 (by positivity)
  have : 0 ≤ i / 2 ^ 53 := div_nonneg hi0' (pow_nonneg zero_le_two _)
  constructor <;> linarith [hrnd'.1, hrnd'.2]

end Dany.Float
