import Verif.Reach.Model
import Mathlib.Algebra.Order.Floor.Ring
import Mathlib.Algebra.Order.Field.Basic

/-!
# Model of the stream delineation (`StreamBase`, stream_util.py:57-107, 381-455)

Arrays given by the user are lists, of whatever size.  `none` stands for NaN in arrays of numbers.
-/

namespace Dany.Delin

open Function Reach

variable {N : ℕ} {K : Type*}

/-- The array with the given entries, if the size is right. -/
def toFun {α : Type*} (N : ℕ) (l : List α) : Option (Fin N → α) :=
  if h : l.length = N then some (fun i => l[i.val]'(by rw [h]; exact i.isLt)) else none

/-- `set_stream_array` (stream_util.py:57-75) -/
def setStreamArray (o : Obj N) (l : List ℤ) : Res (Obj N) :=
  match toFun N l with
  | none => .err .valueError
  | some sa => .ok (o.setStream sa)

/-- the argument `contrib_area`: a number or an array -/
inductive Contrib (K : Type*) where
  | number (c : K)
  | array (l : List (Option K))

/-- the threshold of every cell (stream_util.py:95-101); numbers are broadcast -/
def thresholds (N : ℕ) : Contrib K → Res (Fin N → Option K)
  | .number c => .ok (fun _ => some c)
  | .array l => match toFun N l with
    | none => .err .assertionError
    | some t => .ok t

/-- `facc >= contrib_area`: comparing with NaN is false (stream_util.py:102) -/
def geq [LE K] [DecidableRel (α := K) (· ≤ ·)] : Option K → Option K → Bool
  | some a, some t => decide (t ≤ a)
  | _, _ => false

/-- `stream_array[basin_boundary.ravel() == 0] = 0` (stream_util.py:103-104): a mask of the wrong size
raises `IndexError`. -/
def cut (sa : Fin N → ℤ) : Option (List ℤ) → Res (Fin N → ℤ)
  | none => .ok sa
  | some l => match toFun N l with
    | none => .err .indexError
    | some b => .ok (fun n => if b n = 0 then 0 else sa n)

/-- `delineate_streams` (stream_util.py:77-107): the new object and the array returned -/
def delineate [LE K] [DecidableRel (α := K) (· ≤ ·)] (facc : Fin N → Option K) (o : Obj N)
    (contrib : Contrib K) (boundary : Option (List ℤ)) : Res (Obj N × (Fin N → ℤ)) :=
  (thresholds N contrib).bind fun t =>
    (cut (fun n => if geq (facc n) (t n) = true then 1 else 0) boundary).map fun sa =>
      (o.setStream sa, sa)

section Control

variable [Field K] [LinearOrder K] [FloorRing K]

/-- what an integer array stores of a number: numpy drops the fraction -/
def trunc (x : K) : K := if 0 ≤ x then ((⌊x⌋ : ℤ) : K) else ((⌈x⌉ : ℤ) : K)

/-- `array[node] = self._facc[node] - 5` (stream_util.py:440).  `np.full(shape, threshold)` has the type of
`threshold`: an integer array if that is an integer (the default), which cannot hold NaN. -/
def entry (isInt : Bool) (v : Option K) : Res (Option K) :=
  if isInt = true then
    match v with
    | none => .err .valueError
    | some x => .ok (some (trunc (x - 5)))
  else .ok (v.map (· - 5))

/-- `flows_in` with `acc_val` (stream_util.py:441-447) -/
def flowsIn (nbs : Fin N → List (Fin N)) (fdir : Fin N → ℤ) (facc : Fin N → Option K) (node : Fin N) :
    List (Fin N × K) :=
  (nbs node).filterMap fun n =>
    if fdir n = ((node : ℕ) : ℤ) then (facc n).map (fun a => (n, a)) else none

/-- `flows_in[np.argmax(acc_val)]` (stream_util.py:452-453): the first of the largest -/
def argmax : List (Fin N × K) → Option (Fin N × K)
  | [] => none
  | x :: l => some (l.foldl (fun m y => if m.2 < y.2 then y else m) x)

/-- the `while stack` loop from one point (stream_util.py:435-453); the stack never holds more than one
node -/
def chainLoop (nbs : Fin N → List (Fin N)) (fdir : Fin N → ℤ) (facc : Fin N → Option K) (isInt : Bool) :
    ℕ → Fin N → (Fin N → Option K) → Res (Fin N → Option K)
  | 0, _, _ => .hang
  | k + 1, node, arr =>
    (entry isInt (facc node)).bind fun v =>
      match argmax (flowsIn nbs fdir facc node) with
      | none => .ok (update arr node v)
      | some m => chainLoop nbs fdir facc isInt k m.1 (update arr node v)

/-- one iteration of `for node in cellids` (stream_util.py:434-453) -/
def pointStep (nbs : Fin N → List (Fin N)) (fdir : Fin N → ℤ) (facc : Fin N → Option K) (isInt : Bool)
    (fuel : ℕ) (r : Res (Fin N → Option K)) (node : Fin N) : Res (Fin N → Option K) :=
  r.bind fun arr => chainLoop nbs fdir facc isInt fuel node arr

/-- `threshold_from_control_points` (stream_util.py:381-455) from the cells of the points on (FloPy's
`intersect` is not modelled) -/
def fromControlPoints (nbs : Fin N → List (Fin N)) (fdir : Fin N → ℤ) (facc : Fin N → Option K)
    (isInt : Bool) (fuel : ℕ) (threshold : K) (cells : List (Fin N)) : Res (Fin N → Option K) :=
  cells.foldl (pointStep nbs fdir facc isInt fuel) (.ok fun _ => some threshold)

end Control

end Dany.Delin
