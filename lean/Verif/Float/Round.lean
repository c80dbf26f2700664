import Verif.Float.Spec
import Mathlib.Data.Int.Log
import Mathlib.Data.Rat.Floor
import Mathlib.Algebra.Order.Round
import Mathlib.Tactic.Ring
import Mathlib.Tactic.FieldSimp

/-!
# Rounding to nearest, ties to even (IEEE 754), as executed by NumPy and Python
-/

namespace Dany.Float

/-- nearest integer, ties to even -/
def rne (t : ℚ) : ℤ :=
  if Int.fract t = 1 / 2 then (if ⌊t⌋ % 2 = 0 then ⌊t⌋ else ⌊t⌋ + 1) else round t

/-- exponent of the last bit of a number of the size of `x` -/
def ulpExp (p : ℕ) (emin : ℤ) (x : ℚ) : ℤ := max (Int.log 2 x) emin - (p - 1)

/-- rounding of `x ≥ 0` -/
def rndPos (p : ℕ) (emin : ℤ) (x : ℚ) : ℚ :=
  rne (x / 2 ^ ulpExp p emin x) * 2 ^ ulpExp p emin x

/-- IEEE 754 round-to-nearest-even to the format `Format p emin`. -/
def rnd (p : ℕ) (emin : ℤ) (x : ℚ) : ℚ :=
  if x = 0 then 0 else if x < 0 then -rndPos p emin (-x) else rndPos p emin x

/-- the result of an operation on `np.float64` numbers (e.g. dem_conditioning.py:213) with exact result `x` -/
abbrev rnd64 : ℚ → ℚ := rnd 53 (-1022)

/-- the same for `np.float32`; also what is stored when a `float64` is assigned to an element of a
`float32` array -/
abbrev rnd32 : ℚ → ℚ := rnd 24 (-126)

theorem rne_best (t : ℚ) (k : ℤ) : |(rne t : ℚ) - t| ≤ |(k : ℚ) - t| := by
  have hr : |(round t : ℚ) - t| ≤ |(k : ℚ) - t| := by
    rw [abs_sub_comm, abs_sub_comm (k : ℚ)]; exact round_le t k
  unfold rne
  split
  · rename_i h
    have h2 : |(round t : ℚ) - t| = 1 / 2 := by
      rw [abs_sub_comm, abs_sub_round_eq_min, h]; norm_num
    rw [h2] at hr
    refine le_trans ?_ hr
    have hf : t = ⌊t⌋ + 1 / 2 := by rw [← h]; exact (Int.floor_add_fract t).symm
    split
    · rw [abs_sub_le_iff]; constructor <;> linarith
    · push_cast; rw [abs_sub_le_iff]; constructor <;> linarith
  · exact hr

theorem zpow_pos' (e : ℤ) : (0 : ℚ) < 2 ^ e := zpow_pos (by norm_num) e

theorem neg_mem {p : ℕ} {emin : ℤ} {x : ℚ} (h : x ∈ Format p emin) : -x ∈ Format p emin := by
  obtain ⟨m, e, h1, h2, rfl⟩ := h
  exact ⟨-m, e, by rwa [abs_neg], h2, by push_cast; ring⟩

theorem zero_mem (p : ℕ) (emin : ℤ) : (0 : ℚ) ∈ Format p emin :=
  ⟨0, emin - (p - 1), by simp, le_refl _, by simp⟩

/-- the rounded number is a multiple of the last bit, and below the next power of two -/
theorem rndPos_mem {p : ℕ} (hp : 1 ≤ p) (emin : ℤ) {x : ℚ} (hx : 0 < x) : rndPos p emin x ∈ Format p emin := by
  unfold rndPos
  set e := ulpExp p emin x with he
  have hpe := zpow_pos' e
  have hlt : x < 2 ^ ((p : ℤ) + e) := by
    refine lt_of_lt_of_le (Int.lt_zpow_succ_log_self (b := 2) (by norm_num) x) ?_
    push_cast
    apply zpow_le_zpow_right₀ (by norm_num)
    rw [he]; unfold ulpExp; omega
  have h0 : 0 ≤ rne (x / 2 ^ e) := by
    have hb := rne_best (x / 2 ^ e) 0
    have hq : 0 < x / 2 ^ e := div_pos hx hpe
    by_contra hc
    have : (rne (x / 2 ^ e) : ℚ) ≤ -1 := by exact_mod_cast (by omega : rne (x / 2 ^ e) ≤ -1)
    rw [abs_of_neg (by linarith), abs_of_neg (by push_cast; linarith)] at hb
    push_cast at hb
    linarith
  have hle : rne (x / 2 ^ e) ≤ 2 ^ p := by
    have hb := rne_best (x / 2 ^ e) (2 ^ p)
    have hq : x / 2 ^ e < 2 ^ p := by
      rw [div_lt_iff₀ hpe]
      rw [zpow_add₀ (by norm_num), zpow_natCast] at hlt
      exact hlt
    by_contra hc
    have : (2 : ℚ) ^ p + 1 ≤ rne (x / 2 ^ e) := by
      exact_mod_cast (by omega : (2 : ℤ) ^ p + 1 ≤ rne (x / 2 ^ e))
    rw [abs_of_pos (by linarith), abs_of_pos (by push_cast; linarith)] at hb
    push_cast at hb
    linarith
  have hemin : emin - (p - 1) ≤ e := by rw [he]; unfold ulpExp; omega
  rcases eq_or_lt_of_le hle with heq | hlt'
  · refine ⟨2 ^ (p - 1), e + 1, ?_, by omega, ?_⟩
    · rw [abs_of_nonneg (by positivity)]
      exact pow_lt_pow_right₀ (by norm_num) (by omega)
    · rw [heq, zpow_add₀ (by norm_num), zpow_one]
      push_cast
      rw [← mul_assoc, mul_right_comm, ← pow_succ]
      congr 2; omega
  · exact ⟨rne (x / 2 ^ e), e, by rwa [abs_of_nonneg h0], hemin, rfl⟩

/-- multiples of the last bit -/
theorem rndPos_best_mul {p : ℕ} {emin : ℤ} (x : ℚ) (k : ℤ) :
    |rndPos p emin x - x| ≤ |(k : ℚ) * 2 ^ ulpExp p emin x - x| := by
  unfold rndPos
  set e := ulpExp p emin x
  have hpe := zpow_pos' e
  have hb := rne_best (x / 2 ^ e) k
  have e1 : ∀ c : ℚ, c * 2 ^ e - x = (c - x / 2 ^ e) * 2 ^ e := by intro c; field_simp
  rw [e1, e1, abs_mul, abs_mul]
  exact mul_le_mul_of_nonneg_right hb (abs_nonneg _)

/-- a number of the format of at least the size of a power of two is a multiple of the last bit there -/
theorem mul_of_ge {p : ℕ} {emin L : ℤ} {y : ℚ} (hy : y ∈ Format p emin) (h : 2 ^ L ≤ |y| ∨ L ≤ emin) :
    ∃ k : ℤ, y = k * 2 ^ (L - (p - 1)) := by
  obtain ⟨m, e, h1, h2, rfl⟩ := hy
  have hle : L - (p - 1) ≤ e := by
    rcases h with h | h
    · have hlt : |(m : ℚ) * 2 ^ e| < 2 ^ ((p : ℤ) + e) := by
        rw [abs_mul, abs_of_pos (zpow_pos' e), zpow_add₀ (by norm_num), zpow_natCast]
        apply mul_lt_mul_of_pos_right _ (zpow_pos' e)
        exact_mod_cast h1
      have := lt_of_le_of_lt h hlt
      rw [zpow_lt_zpow_iff_right₀ (by norm_num)] at this
      omega
    · omega
  obtain ⟨d, hd⟩ := Int.le.dest hle
  refine ⟨m * 2 ^ d, ?_⟩
  rw [← hd, zpow_add₀ (by norm_num) (L - (p - 1)) d, zpow_natCast]
  push_cast; ring

theorem rndPos_best {p : ℕ} (hp : 1 ≤ p) (emin : ℤ) {x y : ℚ} (hx : 0 < x) (hy : y ∈ Format p emin) :
    |rndPos p emin x - x| ≤ |y - x| := by
  have hlog : (2 : ℚ) ^ Int.log 2 x ≤ x := by
    have := Int.zpow_log_le_self (b := 2) (by norm_num) hx; exact_mod_cast this
  set L := max (Int.log 2 x) emin with hL
  have hul : ulpExp p emin x = L - (p - 1) := rfl
  by_cases hc : (2 : ℚ) ^ L ≤ |y| ∨ L ≤ emin
  · obtain ⟨k, hk⟩ := mul_of_ge hy hc
    rw [hk, ← hul]; exact rndPos_best_mul x k
  · push Not at hc
    have hLlog : L = Int.log 2 x := by omega
    have hge : (2 : ℚ) ^ L ≤ x := by rw [hLlog]; exact hlog
    have h2 := rndPos_best_mul (p := p) (emin := emin) x (2 ^ (p - 1))
    have e2 : (((2 : ℤ) ^ (p - 1) : ℤ) : ℚ) * 2 ^ ulpExp p emin x = 2 ^ L := by
      rw [hul]; push_cast
      rw [← zpow_natCast, ← zpow_add₀ (by norm_num)]
      congr 1; omega
    rw [e2] at h2
    refine h2.trans ?_
    have hyx : y < 2 ^ L := lt_of_le_of_lt (le_abs_self y) hc.1
    rw [abs_of_nonpos (by linarith), abs_of_neg (by linarith)]
    linarith

/-- The rounding of NumPy is to a nearest number of the format. -/
theorem rnd_nearest {p : ℕ} (hp : 1 ≤ p) (emin : ℤ) : Nearest (Format p emin) (rnd p emin) where
  mem x := by
    unfold rnd
    split
    · exact zero_mem _ _
    · split
      · exact neg_mem (rndPos_mem hp emin (by linarith))
      · rename_i h1 h2
        exact rndPos_mem hp emin (lt_of_le_of_ne (not_lt.1 h2) (Ne.symm h1))
  best x y hy := by
    unfold rnd
    split
    · rename_i h; subst h; simp
    · split
      · have := rndPos_best hp emin (x := -x) (by linarith) (neg_mem hy)
        rw [show -rndPos p emin (-x) - x = -(rndPos p emin (-x) - -x) by ring, abs_neg,
          show y - x = -(-y - -x) by ring, abs_neg]
        exact this
      · rename_i h1 h2
        exact rndPos_best hp emin (lt_of_le_of_ne (not_lt.1 h2) (Ne.symm h1)) hy

theorem rnd64_nearest : Nearest Double rnd64 := rnd_nearest (by norm_num) _
theorem rnd32_nearest : Nearest Single rnd32 := rnd_nearest (by norm_num) _

/-- Ties go to even significands; this is the only freedom `Nearest` leaves. -/
theorem rne_tie {k : ℤ} : rne (k + 1 / 2) = if k % 2 = 0 then k else k + 1 := by
  have hfl : ⌊(k : ℚ) + 1 / 2⌋ = k := by rw [Int.floor_eq_iff]; constructor <;> linarith
  have hfr : Int.fract ((k : ℚ) + 1 / 2) = 1 / 2 := by unfold Int.fract; rw [hfl]; ring
  unfold rne
  rw [if_pos hfr, hfl]

/-! ### well-known values -/

-- 2e-6 as a double, and 0.1 + 0.2 = 0.30000000000000004
example : rnd64 (rnd64 (1 / 10) + rnd64 (1 / 5)) = rnd64 (30000000000000004 / 10 ^ 17) := by decide +kernel
example : rnd64 (1 / 10) = 3602879701896397 / 36028797018963968 := by decide +kernel
example : rnd32 (1 / 10) = 13421773 / 134217728 := by decide +kernel
-- ties to even: 2^24 + 1 is not a float32
example : rnd32 16777217 = 16777216 ∧ rnd32 16777219 = 16777220 := by decide +kernel
-- subnormal numbers
example : rnd32 (1 / 2 ^ 149) = 1 / 2 ^ 149 ∧ rnd32 (1 / 2 ^ 150) = 0 := by decide +kernel

end Dany.Float
