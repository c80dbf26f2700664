import Verif.Float.Round
import Verif.Flood.Model

/-!
# `fill_sinks` on arrays of floating-point numbers

The two priority-flood methods keep the element type of the DEM: `dem = np.copy(dem)`
(dem_conditioning.py:40) and `newdem = dem.ravel().copy()` (dem_conditioning.py:174), so that every
`newdem[n] = newdem[c] + eps` is rounded to that type.  The 'drain' method works on a `float64` array
(`np.ones(dem.size) * 1e+10`, dem_conditioning.py:86).
-/

namespace Dany.Float

open Flood

variable {N : ℕ}

/-- an element type: number of significant bits, and least exponent of normal numbers -/
structure Fmt where
  p : ℕ
  emin : ℤ
  pos : 1 ≤ p

/-- `np.float64` -/
def double : Fmt := ⟨53, -1022, by norm_num⟩

/-- `np.float32` -/
def single : Fmt := ⟨24, -126, by norm_num⟩

/-- the values of a type (infinities, NaN and the sign of zero left out) -/
abbrev Fmt.Num (d : Fmt) : Type := {x : ℚ // x ∈ Format d.p d.emin}

/-- storing the exact value `x` in an element of the type -/
def Fmt.store (d : Fmt) (x : ℚ) : d.Num := ⟨rnd d.p d.emin x, (rnd_nearest d.pos d.emin).mem x⟩

/-- How NumPy adds an element of a `float32` array and a Python float: since version 2 the float is
converted to `float32` first, before the sum was a `float64`. -/
inductive Promo | weak | legacy

/-- `newdem[c] + eps` before it is stored (dem_conditioning.py:201,213,216,221), where `newdem[c]` is an
element of type `d` and `eps` a Python float. -/
def sum (d : Fmt) (pr : Promo) (eps : double.Num) (x : d.Num) : ℚ :=
  match pr with
  | .weak => x.val + (d.store eps.val).val
  | .legacy => (double.store (x.val + eps.val)).val

/-- `a[n] = a[c] + eps` for an array `a` of type `d` (dem_conditioning.py:201,213,216,221) -/
def raise (d : Fmt) (pr : Promo) (eps : double.Num) (x : d.Num) : d.Num := d.store (sum d pr eps x)

/-- the default `eps=2e-06` (dem_conditioning.py:5) -/
def eps6 : double.Num := double.store (2 / 10 ^ 6)

/-- the constant `1e+10` (dem_conditioning.py:86) -/
def flood10 : double.Num := double.store (10 ^ 10)

/-- `fill_sinks` (dem_conditioning.py:5-59) on an array of type `d` (`float32` or `float64`).  The result is
given as rational numbers: its type is `d` for 'priority' and 'complete', `float64` for 'drain', where
the elevations are converted to `float64` when they are compared or stored (dem_conditioning.py:87,130-132). -/
def fillSinksF (fuel : ℕ) (d : Fmt) (pr : Promo) (eps : double.Num) (g : Grid N) (dem : Fin N → d.Num)
    (mask : Option (Fin N → Bool)) (method : String) : Res (Fin N → ℚ) :=
  let method :=
    if mask.isSome then
      if method.toLower = "priority" ∨ method.toLower = "complete" then method else "priority"
    else method
  if method.toLower = "priority" ∨ method.toLower = "complete" then
    (fillSinks fuel (raise d pr eps) (d.store 0) g dem mask method).map fun r n => (r n).val
  else
    (fillSinks fuel (raise double .weak eps) flood10 g (fun n => double.store (dem n).val) mask method).map
      fun r n => (r n).val

end Dany.Float
