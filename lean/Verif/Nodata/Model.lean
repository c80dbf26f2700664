import Verif.Nodata.Heapq
import Verif.Flood.Model
import Mathlib.Data.Fin.VecNotation

/-!
# `fill_sinks` on a DEM with nodata cells (NaN), with CPython's heap

The code of `Flood` once more, but elevations may be NaN (`none`) and the priority queue is the list `heapq` works on.
Comparisons with NaN are false; NaN plus eps is NaN.
-/

namespace Dany.Nodata

open Function

variable {N : ℕ} {V : Type*} [LinearOrder V]

/-- `a < b` for floats -/
def ltO : Option V → Option V → Bool
  | some x, some y => decide (x < y)
  | _, _ => false

/-- `a <= b` for floats -/
def leO : Option V → Option V → Bool
  | some x, some y => decide (x ≤ y)
  | _, _ => false

/-- Python's `<` on the heap's `(elevation, node)` tuples (dem_conditioning.py:182,192,224): the first elements decide unless
they are equal, and NaN equals nothing. -/
def tupleLt (a b : Option V × Fin N) : Bool :=
  match a.1, b.1 with
  | some x, some y => decide (x < y ∨ (x = y ∧ a.2 < b.2))
  | _, _ => false

/-- Loop state of `_priority_flood` (dem_conditioning.py:174-188); `heap` is the list `open`; `done` is a ghost field. -/
structure PF (N : ℕ) (V : Type*) where
  dem : Fin N → Option V
  closed : Fin N → Bool
  heap : List (Option V × Fin N)
  pit : List (Fin N)
  done : List (Fin N)

/-- Initial state (dem_conditioning.py:174-185): the seeds are pushed one by one. -/
def pfInit (dem : Fin N → Option V) (seed : List (Fin N)) : PF N V where
  dem := dem
  closed := fun n => decide (n ∈ seed)
  heap := seed.foldl (fun h n => Heapq.heappush tupleLt h (dem n, n)) []
  pit := []
  done := []

/-- `newdem[n] = newdem[c] + eps; pit.append(n)` (dem_conditioning.py:213-214, 216-217, 221-222). -/
def raiseInto (raise : V → V) (c n : Fin N) (s : PF N V) : PF N V :=
  { s with dem := update s.dem n ((s.dem c).map raise), pit := s.pit ++ [n] }

/-- Body of `for n in neighs` (dem_conditioning.py:203-224). -/
def visit (raise : V → V) (streams : Bool) (seed : List (Fin N)) (c : Fin N) (s : PF N V) (n : ℕ) : PF N V :=
  if h : n < N then
    let n : Fin N := ⟨n, h⟩
    if s.closed n then s
    else
      let s := { s with closed := update s.closed n true }
      if leO (s.dem n) (s.dem c) then
        if streams then
          if c ∉ seed ∧ n ∉ seed then raiseInto raise c n s
          else if c ∈ seed then raiseInto raise c n s
          else s
        else raiseInto raise c n s
      else { s with heap := Heapq.heappush tupleLt s.heap (s.dem n, n) }
  else s

/-- `[newdem[n] for n in neighs if n in seed]` (dem_conditioning.py:199) -/
def streamElevs (nbr : Fin N → List ℕ) (seed : List (Fin N)) (c : Fin N) (dem : Fin N → Option V) : List (Option V) :=
  ((inRange N (nbr c)).filter (fun n => decide (n ∈ seed))).map dem

/-- the lesser of two floats as in `np.min`: NaN if one is NaN -/
def minO : Option V → Option V → Option V
  | some x, some y => some (min x y)
  | _, _ => none

/-- Pit filling of a stream cell (dem_conditioning.py:195-201). -/
def burn (raise : V → V) (streams : Bool) (nbr : Fin N → List ℕ) (seed : List (Fin N))
    (c : Fin N) (dem : Fin N → Option V) : Fin N → Option V :=
  if streams ∧ c ∈ seed then
    match streamElevs nbr seed c dem with
    | [] => dem
    | [_] => dem
    | e :: es => if ltO (dem c) (es.foldl minO e) then update dem c ((es.foldl minO e).map raise) else dem
  else dem

/-- Take the next cell (dem_conditioning.py:189-192). -/
def popNext (s : PF N V) : Option (Fin N × PF N V) :=
  match s.pit with
  | c :: rest => some (c, { s with pit := rest })
  | [] =>
    match Heapq.heappop tupleLt s.heap with
    | none => none
    | some ((_, c), rest) => some (c, { s with heap := rest })

/-- One iteration of `while open or pit` after the pop (dem_conditioning.py:194-224). -/
def process (raise : V → V) (streams : Bool) (nbr : Fin N → List ℕ) (seed : List (Fin N))
    (c : Fin N) (s : PF N V) : PF N V :=
  (nbr c).foldl (visit raise streams seed c)
    { s with dem := burn raise streams nbr seed c s.dem, done := s.done ++ [c] }

/-- `while open or pit` (dem_conditioning.py:188-224). -/
def pfLoop (raise : V → V) (streams : Bool) (nbr : Fin N → List ℕ) (seed : List (Fin N)) :
    ℕ → PF N V → Res (PF N V)
  | 0, _ => .hang
  | k + 1, s =>
    match popNext s with
    | none => .ok s
    | some (c, s') => pfLoop raise streams nbr seed k (process raise streams nbr seed c s')

/-- `_priority_flood` (dem_conditioning.py:144-226). -/
def priorityFlood (fuel : ℕ) (raise : V → V) (streams : Bool) (nbr : Fin N → List ℕ)
    (dem : Fin N → Option V) (seed : List (Fin N)) : Res (Fin N → Option V) :=
  (pfLoop raise streams nbr seed fuel (pfInit dem seed)).map PF.dem

/-- the greater of two floats as in `np.max`: NaN if one is NaN -/
def maxO : Option V → Option V → Option V
  | some x, some y => some (max x y)
  | _, _ => none

/-- Loop body of `_inner_flood_and_drain_fill` for one cell (dem_conditioning.py:128-140). -/
def drainCell (raise : V → V) (nbr : Fin N → List ℕ) (dem : Fin N → Option V) (c : Fin N)
    (s : Bool × (Fin N → Option V)) : Res (Bool × (Fin N → Option V)) :=
  let wf := s.2
  if ltO (dem c) (wf c) then
    (Flood.indexAll N (nbr c)).bind fun nc =>
      if (nc.filter (fun n => leO ((wf n).map raise) (dem c))).length > 0 then
        .ok (true, update wf c (dem c))
      else
        match (nc.filter (fun n => ltO ((wf n).map raise) (wf c))).map wf with
        | [] => .ok s
        | w :: ws => .ok (true, update wf c ((ws.foldl maxO w).map raise))
  else .ok s

/-- `_inner_flood_and_drain_fill` (dem_conditioning.py:126-141). -/
def drainSweep (raise : V → V) (nbr : Fin N → List ℕ) (dem wf : Fin N → Option V) :
    Res (Bool × (Fin N → Option V)) :=
  Flood.foldRes (drainCell raise nbr dem) (List.finRange N) (false, wf)

/-- `while modified` (dem_conditioning.py:89-96). -/
def drainLoop (raise : V → V) (nbr : Fin N → List ℕ) (dem : Fin N → Option V) :
    ℕ → (Fin N → Option V) → Res (Fin N → Option V)
  | 0, _ => .hang
  | k + 1, wf =>
    (drainSweep raise nbr dem wf).bind fun r =>
      if r.1 then drainLoop raise nbr dem k r.2 else .ok r.2

/-- Initial water surface (dem_conditioning.py:86-87); `flood` is `1e10`. -/
def drainInit (flood : V) (dem : Fin N → Option V) (seed : List (Fin N)) : Fin N → Option V :=
  fun n => if n ∈ seed then dem n else some flood

/-- `_flood_and_drain_fill` (dem_conditioning.py:62-96). -/
def floodAndDrain (fuel : ℕ) (raise : V → V) (flood : V) (nbr : Fin N → List ℕ) (dem : Fin N → Option V)
    (seed : List (Fin N)) : Res (Fin N → Option V) :=
  drainLoop raise nbr dem fuel (drainInit flood dem seed)

/-- The part of `fill_sinks` after the edge cells are known (dem_conditioning.py:41-57). -/
def fillFrom (fuel : ℕ) (raise : V → V) (flood : V) (nbr : Fin N → List ℕ)
    (edge : List (Fin N)) (dem : Fin N → Option V) (mask : Option (Fin N → Bool)) (method : String) :
    Res (Fin N → Option V) :=
  let method :=
    if mask.isSome then
      if method.toLower = "priority" ∨ method.toLower = "complete" then method else "priority"
    else method
  if method.toLower = "priority" ∨ method.toLower = "complete" then
    let raise := if method.toLower = "complete" then id else raise
    match mask with
    | some m => priorityFlood fuel raise true nbr dem ((List.finRange N).filter (fun n => m n))
    | none => priorityFlood fuel raise false nbr dem edge
  else floodAndDrain fuel raise flood nbr dem edge

/-- `fill_sinks` (dem_conditioning.py:5-59), any DEM.  Reshaping is left out: arrays are flat. -/
def fillSinks (fuel : ℕ) (raise : V → V) (flood : V) (g : Flood.Grid N) (dem : Fin N → Option V)
    (mask : Option (Fin N → Bool)) (method : String) : Res (Fin N → Option V) :=
  (Edge.edgeNodes g.iverts).bind fun edge => fillFrom fuel raise flood g.nbr edge dem mask method

end Dany.Nodata
