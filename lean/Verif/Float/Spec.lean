import Mathlib.Algebra.Order.Ring.Rat
import Mathlib.Algebra.Order.Field.Power
import Mathlib.Algebra.Order.Group.Abs
import Mathlib.Data.Set.Basic
import Mathlib.Tactic.Linarith

/-!
# Floating-point numbers: independent specification

`Format p emin` is the set of numbers of a binary format with `p` significant bits and least exponent `emin`
of a normal number (subnormal numbers included, no upper bound of the exponent).  `Nearest F rnd` says that
`rnd` rounds to a nearest element of `F`; how ties are broken is left open.
-/

namespace Dany.Float

/-- the numbers `m · 2^e` with `|m| < 2^p` and `e ≥ emin - (p - 1)` -/
def Format (p : ℕ) (emin : ℤ) : Set ℚ :=
  {x | ∃ (m : ℤ) (e : ℤ), |m| < 2 ^ p ∧ emin - (p - 1) ≤ e ∧ x = m * 2 ^ e}

/-- IEEE 754 binary64 (`np.float64`, the Python float), without overflow -/
abbrev Double : Set ℚ := Format 53 (-1022)

/-- IEEE 754 binary32 (`np.float32`), without overflow -/
abbrev Single : Set ℚ := Format 24 (-126)

/-- `rnd` gives a nearest element of `F`. -/
structure Nearest (F : Set ℚ) (rnd : ℚ → ℚ) : Prop where
  mem : ∀ x, rnd x ∈ F
  best : ∀ x, ∀ y ∈ F, |rnd x - x| ≤ |y - x|

/-! ### what follows for every such rounding -/

variable {F : Set ℚ} {rnd : ℚ → ℚ}

theorem Nearest.exact (h : Nearest F rnd) {x : ℚ} (hx : x ∈ F) : rnd x = x := by
  have := h.best x x hx
  rw [sub_self, abs_zero, abs_nonpos_iff] at this
  linarith

theorem Nearest.mono (h : Nearest F rnd) : Monotone rnd := by
  intro x y hxy
  rcases eq_or_lt_of_le hxy with rfl | hlt
  · exact le_refl _
  by_contra hc
  push Not at hc
  have h1 := h.best x _ (h.mem y)
  have h2 := h.best y _ (h.mem x)
  rcases abs_cases (rnd x - x) with ⟨a1, _⟩ | ⟨a1, _⟩ <;>
  rcases abs_cases (rnd y - x) with ⟨a2, _⟩ | ⟨a2, _⟩ <;>
  rcases abs_cases (rnd y - y) with ⟨a3, _⟩ | ⟨a3, _⟩ <;>
  rcases abs_cases (rnd x - y) with ⟨a4, _⟩ | ⟨a4, _⟩ <;>
  rw [a1, a2] at h1 <;> rw [a3, a4] at h2 <;> linarith

/-- Adding something that is not negative never lowers a representable number. -/
theorem Nearest.le_add (h : Nearest F rnd) {x e : ℚ} (hx : x ∈ F) (he : 0 ≤ e) : x ≤ rnd (x + e) := by
  have := h.mono (show x ≤ x + e by linarith)
  rwa [h.exact hx] at this

/-- It raises it if another representable number is nearer than twice the summand … -/
theorem Nearest.lt_add (h : Nearest F rnd) {x y e : ℚ} (hx : x ∈ F) (hy : y ∈ F) (h1 : x < y)
    (h2 : y < x + 2 * e) : x < rnd (x + e) := by
  have he : 0 ≤ e := by linarith
  rcases eq_or_lt_of_le (h.le_add hx he) with heq | hlt
  · have := h.best (x + e) y hy
    rw [← heq] at this
    rcases abs_cases (x - (x + e)) with ⟨a1, _⟩ | ⟨a1, _⟩ <;>
    rcases abs_cases (y - (x + e)) with ⟨a2, _⟩ | ⟨a2, _⟩ <;>
    rw [a1, a2] at this <;> linarith
  · exact hlt

/-- … and is lost if there is none. -/
theorem Nearest.absorb (h : Nearest F rnd) {x e : ℚ} (hx : x ∈ F) (he : 0 ≤ e)
    (hgap : ∀ y ∈ F, x < y → x + 2 * e < y) : rnd (x + e) = x := by
  rcases eq_or_lt_of_le (h.le_add hx he) with heq | hlt
  · exact heq.symm
  · exfalso
    have h1 := hgap _ (h.mem _) hlt
    have h2 := h.best (x + e) x hx
    rcases abs_cases (rnd (x + e) - (x + e)) with ⟨a1, _⟩ | ⟨a1, _⟩ <;>
    rcases abs_cases (x - (x + e)) with ⟨a2, _⟩ | ⟨a2, _⟩ <;>
    rw [a1, a2] at h2 <;> linarith

/-- A rounded sum never jumps over a representable number. -/
theorem Nearest.le_of_le (h : Nearest F rnd) {x y : ℚ} (hy : y ∈ F) (hxy : x ≤ y) : rnd x ≤ y := by
  have := h.mono hxy; rwa [h.exact hy] at this

theorem Nearest.ge_of_ge (h : Nearest F rnd) {x y : ℚ} (hy : y ∈ F) (hxy : y ≤ x) : y ≤ rnd x := by
  have := h.mono hxy; rwa [h.exact hy] at this

end Dany.Float
