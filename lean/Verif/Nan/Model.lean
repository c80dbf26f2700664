import Verif.Flood.Model
import Mathlib.Algebra.Order.Field.Basic
import Mathlib.Algebra.BigOperators.Group.List.Basic

/-!
# Model of `dany/dem_conditioning.py`: `fill_nan_values`

`K` is an ordered field (exact arithmetic); NaN is `none`.
-/

namespace Dany.Nan

open Function

variable {N : ℕ} {K : Type*} [Field K] [LinearOrder K]

/-- the numbers among the neighbour values -/
def valid (elevs : List (Option K)) : List K := elevs.filterMap id

/-- `np.nanmean` (dem_conditioning.py:294): NaN if there is no number. -/
def nanMean (elevs : List (Option K)) : Option K :=
  match valid elevs with
  | [] => none
  | v :: vs => some ((v :: vs).sum / ((v :: vs).length : K))

/-- `np.nanmedian` (dem_conditioning.py:296): middle element, or mean of the two middle elements, of
the sorted numbers; NaN if there is none. -/
def nanMedian (elevs : List (Option K)) : Option K :=
  let s := (valid elevs).insertionSort (· ≤ ·)
  if s.length = 0 then none
  else if s.length % 2 = 1 then some (s.getD (s.length / 2) 0)
  else some ((s.getD (s.length / 2 - 1) 0 + s.getD (s.length / 2) 0) / 2)

/-- `np.nanmin` (dem_conditioning.py:298): `ValueError` on an empty array, NaN if all are NaN. -/
def nanMin (elevs : List (Option K)) : Res (Option K) :=
  if elevs = [] then .err .valueError
  else match valid elevs with
    | [] => .ok none
    | v :: vs => .ok (some (vs.foldl min v))

/-- `np.nanmax` (dem_conditioning.py:300). -/
def nanMax (elevs : List (Option K)) : Res (Option K) :=
  if elevs = [] then .err .valueError
  else match valid elevs with
    | [] => .ok none
    | v :: vs => .ok (some (vs.foldl max v))

/-- The `if/elif` chain on the lower-cased method name (dem_conditioning.py:287,293-302). -/
def aggregate (method : String) (elevs : List (Option K)) : Res (Option K) :=
  if method.toLower = "mean" then .ok (nanMean elevs)
  else if method.toLower = "median" then .ok (nanMedian elevs)
  else if method.toLower = "min" then nanMin elevs
  else if method.toLower = "max" then nanMax elevs
  else .err .notImplementedError

/-- `while stack` (dem_conditioning.py:289-307).  The head of the list is the end of the Python list
`stack`, which is where `pop` and `append` work: a cell whose aggregate is NaN is pushed back and
therefore popped again next. -/
def nanLoop (method : String) (nbr : Fin N → List ℕ) :
    ℕ → List (Fin N) → (Fin N → Option K) → Res (Fin N → Option K)
  | 0, _, _ => .hang
  | _ + 1, [], dem => .ok dem
  | k + 1, node :: rest, dem =>
    (Flood.indexAll N (nbr node)).bind fun nn =>
      (aggregate method (nn.map dem)).bind fun elev =>
        match elev with
        | none => nanLoop method nbr k (node :: rest) dem
        | some v => nanLoop method nbr k rest (update dem node (some v))

/-- `fill_nan_values` (dem_conditioning.py:264-309). -/
def fillNan (fuel : ℕ) (method : String) (nbr : Fin N → List ℕ) (dem : Fin N → Option K) :
    Res (Fin N → Option K) :=
  nanLoop method nbr fuel (((List.finRange N).filter (fun n => (dem n).isNone)).reverse) dem

end Dany.Nan
