import Verif.Base
import Verif.Edge.Model
import Mathlib.Order.Defs.LinearOrder
import Mathlib.Data.Fintype.Basic
import Mathlib.Data.List.FinRange

/-!
# Model of `dany/dem_conditioning.py`: `fill_sinks`, `_priority_flood`, `_flood_and_drain_fill`,
`_inner_flood_and_drain_fill`

`V` is the type of elevations (any linear order) and `raise x` stands for `x + eps`.
`nbr c` is the neighbour list `modelgrid.neighbors(method="queen", as_nodes=True)[c]`.
-/

namespace Dany.Flood

open Function

variable {N : ℕ} {V : Type*} [LinearOrder V]

/-- Loop state of `_priority_flood` (dem_conditioning.py:174-188): `newdem`, `closed`, the heap
`open`, the list `pit`.  `done` is a ghost field: the cells taken from a queue so far. -/
structure PF (N : ℕ) (V : Type*) where
  dem : Fin N → V
  closed : Fin N → Bool
  heap : List (V × Fin N)
  pit : List (Fin N)
  done : List (Fin N)

/-- Python's order on the heap's `(elevation, node)` tuples (dem_conditioning.py:182,192,224). -/
def tupleLe (a b : V × Fin N) : Bool := decide (a.1 < b.1 ∨ (a.1 = b.1 ∧ a.2 ≤ b.2))

/-- `heapq.heappop` (dem_conditioning.py:192), modelled by its contract: remove the least tuple. -/
def popMin : List (V × Fin N) → Option ((V × Fin N) × List (V × Fin N))
  | [] => none
  | x :: xs =>
    match popMin xs with
    | none => some (x, [])
    | some (m, rest) => if tupleLe x m then some (x, xs) else some (m, x :: rest)

/-- Initial state (dem_conditioning.py:174-185): all seeds are on the heap and closed. -/
def pfInit (dem : Fin N → V) (seed : List (Fin N)) : PF N V where
  dem := dem
  closed := fun n => decide (n ∈ seed)
  heap := seed.map (fun n => (dem n, n))
  pit := []
  done := []

/-- `newdem[n] = newdem[c] + eps; pit.append(n)` (dem_conditioning.py:213-214, 216-217, 221-222). -/
def raiseInto (raise : V → V) (c n : Fin N) (s : PF N V) : PF N V :=
  { s with dem := update s.dem n (raise (s.dem c)), pit := s.pit ++ [n] }

/-- Body of `for n in neighs` (dem_conditioning.py:203-224), branch by branch. -/
def visit (raise : V → V) (streams : Bool) (seed : List (Fin N)) (c : Fin N) (s : PF N V) (n : ℕ) :
    PF N V :=
  if h : n < N then
    let n : Fin N := ⟨n, h⟩
    if s.closed n then s
    else
      let s := { s with closed := update s.closed n true }
      if s.dem n ≤ s.dem c then
        if streams then
          if c ∉ seed ∧ n ∉ seed then raiseInto raise c n s
          else if c ∈ seed then raiseInto raise c n s
          else s
        else raiseInto raise c n s
      else { s with heap := (s.dem n, n) :: s.heap }
  else s

/-- The list comprehension `[newdem[n] for n in neighs if n in seed]` (dem_conditioning.py:199). -/
def streamElevs (nbr : Fin N → List ℕ) (seed : List (Fin N)) (c : Fin N) (dem : Fin N → V) :
    List V :=
  ((inRange N (nbr c)).filter (fun n => decide (n ∈ seed))).map dem

/-- Pit filling of a stream cell when it is taken from the queue (dem_conditioning.py:195-201). -/
def burn (raise : V → V) (streams : Bool) (nbr : Fin N → List ℕ) (seed : List (Fin N))
    (c : Fin N) (dem : Fin N → V) : Fin N → V :=
  if streams ∧ c ∈ seed then
    match streamElevs nbr seed c dem with
    | [] => dem
    | [_] => dem
    | e :: es => if es.foldl min e > dem c then update dem c (raise (es.foldl min e)) else dem
  else dem

/-- Take the next cell: first from `pit` (first in, first out), else the least heap entry
(dem_conditioning.py:189-192). -/
def popNext (s : PF N V) : Option (Fin N × PF N V) :=
  match s.pit with
  | c :: rest => some (c, { s with pit := rest })
  | [] =>
    match popMin s.heap with
    | none => none
    | some ((_, c), rest) => some (c, { s with heap := rest })

/-- One iteration of `while open or pit` after the pop (dem_conditioning.py:194-224). -/
def process (raise : V → V) (streams : Bool) (nbr : Fin N → List ℕ) (seed : List (Fin N))
    (c : Fin N) (s : PF N V) : PF N V :=
  (nbr c).foldl (visit raise streams seed c)
    { s with dem := burn raise streams nbr seed c s.dem, done := s.done ++ [c] }

/-- `while open or pit` (dem_conditioning.py:188-224). -/
def pfLoop (raise : V → V) (streams : Bool) (nbr : Fin N → List ℕ) (seed : List (Fin N)) :
    ℕ → PF N V → Res (PF N V)
  | 0, _ => .hang
  | k + 1, s =>
    match popNext s with
    | none => .ok s
    | some (c, s') => pfLoop raise streams nbr seed k (process raise streams nbr seed c s')

/-- `_priority_flood` (dem_conditioning.py:144-226). -/
def priorityFlood (fuel : ℕ) (raise : V → V) (streams : Bool) (nbr : Fin N → List ℕ)
    (dem : Fin N → V) (seed : List (Fin N)) : Res (Fin N → V) :=
  (pfLoop raise streams nbr seed fuel (pfInit dem seed)).map PF.dem

/-- Neighbour list used as a numpy index (`wf[nc]`, dem_conditioning.py:130,135,138): an entry
outside the array raises `IndexError`. -/
def indexAll (N : ℕ) : List ℕ → Res (List (Fin N))
  | [] => .ok []
  | n :: l => (natIndex N n).bind fun i => (indexAll N l).map fun r => i :: r

/-- Loop body of `_inner_flood_and_drain_fill` for one cell (dem_conditioning.py:128-140).
`np.where(dem[c] >= wf[nc] + eps)` non-empty: drop to the ground; otherwise, among the neighbours
with `wf[n] + eps < wf[c]`, the *highest* one determines the new level. -/
def drainCell (raise : V → V) (nbr : Fin N → List ℕ) (dem : Fin N → V) (c : Fin N)
    (s : Bool × (Fin N → V)) : Res (Bool × (Fin N → V)) :=
  let wf := s.2
  if wf c > dem c then
    (indexAll N (nbr c)).bind fun nc =>
      if (nc.filter (fun n => decide (dem c ≥ raise (wf n)))).length > 0 then
        .ok (true, update wf c (dem c))
      else
        match (nc.filter (fun n => decide (raise (wf n) < wf c))).map wf with
        | [] => .ok s
        | w :: ws => .ok (true, update wf c (raise (ws.foldl max w)))
  else .ok s

/-- Run a loop body over a list of cells, stopping at the first exception. -/
def foldRes {α β : Type*} (f : α → β → Res β) : List α → β → Res β
  | [], s => .ok s
  | a :: l, s => (f a s).bind (foldRes f l)

/-- `_inner_flood_and_drain_fill`: one sweep over all cells, in place (dem_conditioning.py:126-141). -/
def drainSweep (raise : V → V) (nbr : Fin N → List ℕ) (dem wf : Fin N → V) :
    Res (Bool × (Fin N → V)) :=
  foldRes (drainCell raise nbr dem) (List.finRange N) (false, wf)

/-- `while modified` (dem_conditioning.py:89-96). -/
def drainLoop (raise : V → V) (nbr : Fin N → List ℕ) (dem : Fin N → V) :
    ℕ → (Fin N → V) → Res (Fin N → V)
  | 0, _ => .hang
  | k + 1, wf =>
    (drainSweep raise nbr dem wf).bind fun r =>
      if r.1 then drainLoop raise nbr dem k r.2 else .ok r.2

/-- Initial water surface: `np.ones(dem.size) * 1e+10` with `wf[seed] = dem[seed]`
(dem_conditioning.py:86-87).  `flood` is the constant `1e10`. -/
def drainInit (flood : V) (dem : Fin N → V) (seed : List (Fin N)) : Fin N → V :=
  fun n => if n ∈ seed then dem n else flood

/-- `_flood_and_drain_fill` (dem_conditioning.py:62-96). -/
def floodAndDrain (fuel : ℕ) (raise : V → V) (flood : V) (nbr : Fin N → List ℕ) (dem : Fin N → V)
    (seed : List (Fin N)) : Res (Fin N → V) :=
  drainLoop raise nbr dem fuel (drainInit flood dem seed)

/-- The part of `fill_sinks` after the edge cells are known (dem_conditioning.py:41-57).
`raise x` is `x + eps`; `method="complete"` sets `eps = 0.`, i.e. `x + 0. = x`.
`stream_mask` is given by its positive cells: `stream_mask.ravel() > 0`. -/
def fillFrom (fuel : ℕ) (raise : V → V) (flood : V) (nbr : Fin N → List ℕ)
    (edge : List (Fin N)) (dem : Fin N → V) (mask : Option (Fin N → Bool)) (method : String) :
    Res (Fin N → V) :=
  let method :=
    if mask.isSome then
      if method.toLower = "priority" ∨ method.toLower = "complete" then method else "priority"
    else method
  if method.toLower = "priority" ∨ method.toLower = "complete" then
    let raise := if method.toLower = "complete" then id else raise
    match mask with
    | some m => priorityFlood fuel raise true nbr dem ((List.finRange N).filter (fun n => m n))
    | none => priorityFlood fuel raise false nbr dem edge
  else floodAndDrain fuel raise flood nbr dem edge

/-- What `fill_sinks` uses of the FloPy grid: vertex numbers of each cell (`modelgrid.iverts`) and the
queen neighbours (`modelgrid.neighbors(method="queen", as_nodes=True)`). -/
structure Grid (N : ℕ) where
  iverts : Fin N → List ℕ
  nbr : Fin N → List ℕ

/-- `fill_sinks` (dem_conditioning.py:5-59).  Reshaping is left out: arrays are flat. -/
def fillSinks (fuel : ℕ) (raise : V → V) (flood : V) (g : Grid N) (dem : Fin N → V)
    (mask : Option (Fin N → Bool)) (method : String) : Res (Fin N → V) :=
  (Edge.edgeNodes g.iverts).bind fun edge => fillFrom fuel raise flood g.nbr edge dem mask method

end Dany.Flood
