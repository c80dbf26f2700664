import Verif.Flood.Model
import Mathlib.Data.Rat.Floor
import Mathlib.Algebra.Order.Ring.Rat

/-!
# `fill_sinks` on an array of integers

`fill_sinks` keeps the element type of its input in the two priority-flood methods:
`dem = np.copy(dem)` (dem_conditioning.py:40) and `newdem = dem.ravel().copy()`
(dem_conditioning.py:174).  Storing the float `newdem[c] + eps` into an integer array truncates it
towards zero.  The 'drain' method works on a float array (`np.ones(dem.size) * 1e+10`,
dem_conditioning.py:86) and is not affected.  Overflow of fixed-width integers is not modelled.
-/

namespace Dany.Ints

open Flood

variable {N : ℕ}

/-- Storing a float in an element of an integer array (dem_conditioning.py:201,213,216,221):
truncation towards zero. -/
def store (x : ℚ) : ℤ := if x < 0 then ⌈x⌉ else ⌊x⌋

/-- `a[n] = a[c] + eps` for an integer array `a` (dem_conditioning.py:201,213,216,221). -/
def raiseInt (eps : ℚ) (x : ℤ) : ℤ := store ((x : ℚ) + eps)

/-- `fill_sinks` (dem_conditioning.py:5-59) on an integer array.  The result is given as rational
numbers: it is an integer array for 'priority' and 'complete', a float array for 'drain'. -/
def fillSinksInt (fuel : ℕ) (eps flood : ℚ) (g : Grid N) (dem : Fin N → ℤ)
    (mask : Option (Fin N → Bool)) (method : String) : Res (Fin N → ℚ) :=
  let method :=
    if mask.isSome then
      if method.toLower = "priority" ∨ method.toLower = "complete" then method else "priority"
    else method
  if method.toLower = "priority" ∨ method.toLower = "complete" then
    (fillSinks fuel (raiseInt eps) 0 g dem mask method).map fun r n => (r n : ℚ)
  else fillSinks fuel (· + eps) flood g (fun n => (dem n : ℚ)) mask method

end Dany.Ints
