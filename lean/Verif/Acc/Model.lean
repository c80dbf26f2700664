import Verif.Flow.Spec
import Mathlib.Data.Nat.Cast.Basic

/-!
# Model of `get_nidp` and `flow_accumulation` (`dany/flow_directions.py`)

`K` is the type of areas, with any addition: exact (then it is an additive commutative monoid with one) or
rounded (`Float.Fmt.Num`).
-/

namespace Dany.Acc

open Function

variable {N : ℕ} {K : Type*} [Add K] [Zero K] [One K]

/-- body of `for cell in self._fdir: nidp_array[cell] += 1` (flow_directions.py:382-383) -/
def nidpStep (fdir : Fin N → ℤ) (acc : Res (Fin N → ℕ)) (n : Fin N) : Res (Fin N → ℕ) :=
  acc.bind fun nidp => (pyIndex N (fdir n)).bind fun m => .ok (update nidp m (nidp m + 1))

/-- `get_nidp` (flow_directions.py:371-385). -/
def getNidp (fdir : Fin N → ℤ) : Res (Fin N → ℕ) :=
  (List.finRange N).foldl (nidpStep fdir) (.ok fun _ => 0)

/-- The arrays of `flow_accumulation`: `nidp_array`, `flow_acc`, `flow_acc_area`
(flow_directions.py:449-451). -/
structure State (N : ℕ) (K : Type*) where
  nidp : Fin N → ℕ
  acc : Fin N → K
  area : Fin N → K

/-- The inner `while True` loop (flow_directions.py:459-467); `n`, `naccu`, `area` are the loop
variables. -/
def walk (fdir : Fin N → ℤ) : ℕ → Fin N → K → K → State N K → Res (State N K)
  | 0, _, _, _, _ => .hang
  | k + 1, n, naccu, area, s =>
    let s1 : State N K := { s with acc := update s.acc n (s.acc n + naccu)
                                   area := update s.area n (s.area n + area) }
    if s1.nidp n ≥ 2 then .ok { s1 with nidp := update s1.nidp n (s1.nidp n - 1) }
    else (pyIndex N (fdir n)).bind fun m => walk fdir k m (s1.acc n) (s1.area n) s1

/-- one iteration of `for ix, nidp_val in enumerate(nidp_array)` (flow_directions.py:452-467); the
enumeration reads the array that the loop modifies. -/
def accStep (fuel : ℕ) (fdir : Fin N → ℤ) (r : Res (State N K)) (ix : Fin N) : Res (State N K) :=
  r.bind fun s => if s.nidp ix ≠ 0 then .ok s else walk fdir fuel ix 0 0 s

/-- `flow_accumulation` (flow_directions.py:430-475), raveled; `area` is `self._area`. -/
def flowAccumulation (fuel : ℕ) (fdir : Fin N → ℤ) (area : Fin N → K) (asCells : Bool) :
    Res (Fin N → K) :=
  (getNidp fdir).bind fun nidp =>
    ((List.finRange N).foldl (accStep fuel fdir)
      (.ok { nidp := nidp, acc := fun _ => 1, area := area })).map fun s =>
        if asCells then s.acc else s.area

end Dany.Acc
