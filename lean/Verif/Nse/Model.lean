import Mathlib.Analysis.SpecialFunctions.Log.Basic
import Mathlib.Algebra.BigOperators.Fin

/-!
# Model of `examples/nse_util.py`: `nash_sutcliffe_efficiency`

Real arithmetic.  A missing value (NaN, and the infinities the code turns into NaN in lines 13-14) is
`none`.  Both series have the same length `N`.
-/

namespace Dany.Nse

open scoped BigOperators

variable {N : ℕ}

/-- A numpy float result: a number, NaN, or minus infinity (the result of `1 - x / 0`). -/
inductive Score
  | num (r : ℝ)
  | nan
  | ninf

/-- `q[q == 0] = 1e-06; q = np.log(q)` (examples/nse_util.py:8-11): the logarithm of a negative number
is NaN. -/
noncomputable def logVal (x : Option ℝ) : Option ℝ :=
  match x with
  | none => none
  | some r =>
    let r := if r = 0 then 1e-06 else r
    if r < 0 then none else some (Real.log r)

/-- `np.nansum` (examples/nse_util.py:14-15): missing values count as zero. -/
def nanSum (f : Fin N → Option ℝ) : ℝ := ∑ i, (f i).getD 0

/-- `np.nanmean` (examples/nse_util.py:15): NaN if there is no number. -/
noncomputable def nanMean (f : Fin N → Option ℝ) : Option ℝ :=
  let n := (Finset.univ.filter fun i => f i ≠ none).card
  if n = 0 then none else some (nanSum f / n)

/-- `(a - b) ** 2` with NaN if either is (examples/nse_util.py:14-15). -/
def sqDiff (a b : Option ℝ) : Option ℝ :=
  match a, b with
  | some x, some y => some ((x - y) ^ 2)
  | _, _ => none

/-- `nash_sutcliffe_efficiency` (examples/nse_util.py:4-19).  Division follows numpy: `0 / 0` is NaN,
`x / 0` for positive `x` is infinite. -/
noncomputable def nse (qsim qobs : Fin N → Option ℝ) (flg nnse : Bool) : Score :=
  let qsim := if flg then fun i => logVal (qsim i) else qsim
  let qobs := if flg then fun i => logVal (qobs i) else qobs
  let numerator := nanSum fun i => sqDiff (qobs i) (qsim i)
  let denominator := nanSum fun i => sqDiff (qobs i) (nanMean qobs)
  if denominator = 0 then
    if numerator = 0 then .nan
    else if nnse then .num 0 else .ninf
  else
    let r := 1 - numerator / denominator
    if nnse then .num (1 / (2 - r)) else .num r

end Dany.Nse
