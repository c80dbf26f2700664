import Verif.Acc.Model
import Verif.Topo.Model

/-!
# Model of the watershed delineation of `dany/flow_directions.py`

The object state used here is the flow-direction array and the cached reversed table; the location of
a pour point (FloPy's `intersect`) is its cell number, a parameter.
-/

namespace Dany.Basin

open Function

variable {N : ℕ}

/-- The part of the `FlowDirections` object read and written by the delineation: `self._fdir` and
`self._fdir_r` (flow_directions.py:59-60); the table is a list of rows. -/
structure State (N : ℕ) where
  fdir : Fin N → ℤ
  fdirR : Option (List (Fin N → ℤ))

/-- `for jx in range(max_nidp)` … `break` (flow_directions.py:365-368): write `ix` into the first row
whose entry in column `c` is `-1`. -/
def place (c : Fin N) (ix : ℤ) : List (Fin N → ℤ) → List (Fin N → ℤ)
  | [] => []
  | row :: rows => if row c = -1 then update row c ix :: rows else row :: place c ix rows

/-- `np.max` of a non-empty array of counts. -/
def npMax (f : Fin N → ℕ) : ℕ := (List.finRange N).foldl (fun m n => max m (f n)) 0

/-- one iteration of `for ix, fdir in enumerate(self._fdir)` (flow_directions.py:364-368) -/
def tableStep (fdir : Fin N → ℤ) (r : Res (List (Fin N → ℤ))) (ix : Fin N) :
    Res (List (Fin N → ℤ)) :=
  r.bind fun rows => (pyIndex N (fdir ix)).bind fun c => .ok (place c ((ix : ℕ) : ℤ) rows)

/-- the table computed when nothing is cached (flow_directions.py:361-368) -/
def buildTable (fdir : Fin N → ℤ) : Res (List (Fin N → ℤ)) :=
  (Acc.getNidp fdir).bind fun nidp =>
    (List.finRange N).foldl (tableStep fdir) (.ok (List.replicate (npMax nidp) (fun _ => -1)))

/-- `_reverse_flow_directions` (flow_directions.py:347-369): returns the table and the new state. -/
def reverseTable (s : State N) : Res (State N × List (Fin N → ℤ)) :=
  match s.fdirR with
  | some rows => .ok (s, rows)
  | none => (buildTable s.fdir).map fun rows => ({ s with fdirR := some rows }, rows)

/-- `fdir_r[:nidp, cellid].tolist()` (flow_directions.py:526,537) -/
def column (rows : List (Fin N → ℤ)) (nidp : ℕ) (c : Fin N) : List ℤ :=
  (rows.take nidp).map (fun row => row c)

/-- the `while stack` loop (flow_directions.py:527-539) -/
def bfs (rows : List (Fin N → ℤ)) (nidp : Fin N → ℕ) (id : ℕ) :
    ℕ → List ℤ → (Fin N → ℕ) → Res (Fin N → ℕ)
  | 0, _, _ => .hang
  | _ + 1, [], sub => .ok sub
  | k + 1, x :: rest, sub =>
    (pyIndex N x).bind fun c =>
      if sub c ≠ 0 then bfs rows nidp id k rest sub
      else
        let sub := update sub c id
        if nidp c = 0 then bfs rows nidp id k rest sub
        else bfs rows nidp id k (rest ++ column rows (nidp c) c) sub

/-- `get_watershed_boundary` (flow_directions.py:477-541) from the point's cell on; `sub0` is the
keyword argument `subbasins`, all zero by default. -/
def watershed (fuel : ℕ) (s : State N) (cell : Fin N) (sub0 : Fin N → ℕ) :
    Res (State N × (Fin N → ℕ)) :=
  (reverseTable s).bind fun r =>
    (Acc.getNidp r.1.fdir).bind fun nidp =>
      let id := npMax sub0 + 1
      (bfs r.2 nidp id fuel (column r.2 (nidp cell) cell) (update sub0 cell id)).map fun sub =>
        (r.1, sub)

/-- The `while True` loop that looks for the next pour point downstream (flow_directions.py:593-608);
`-1` stands for "basin outlet". -/
def nextPour (fdir : Fin N → ℤ) (cellids : List ℤ) (current : ℤ) :
    ℕ → ℤ → List ℤ → Res ℤ
  | 0, _, _ => .hang
  | k + 1, cellid, visited =>
    if cellid ∈ visited then .ok (-1)
    else if cellid ∉ cellids ∨ cellid = current then
      if cellid ≠ current then
        (pyIndex N cellid).bind fun c => nextPour fdir cellids current k (fdir c) (visited ++ [cellid])
      else
        (pyIndex N cellid).bind fun c =>
          if fdir c = current then .ok (-1)
          else nextPour fdir cellids current k (fdir c) visited
    else .ok cellid

/-- one iteration of `for cellid in cellids` (flow_directions.py:590-608) -/
def graphStep (fuel : ℕ) (fdir : Fin N → ℤ) (cellids : List ℤ) (r : Res (Dict ℤ ℤ)) (p : ℤ) :
    Res (Dict ℤ ℤ) :=
  r.bind fun g => (nextPour fdir cellids p fuel p []).bind fun q => .ok (g.set p q)

/-- the `graph` dictionary (flow_directions.py:589-608) -/
def pourGraph (fuel : ℕ) (fdir : Fin N → ℤ) (cellids : List ℤ) : Res (Dict ℤ ℤ) :=
  cellids.foldl (graphStep fuel fdir cellids) (.ok [])

/-- the solution order (flow_directions.py:610-615) -/
def pourOrder (limit fuel : ℕ) (fdir : Fin N → ℤ) (cellids : List ℤ) : Res (List ℤ) :=
  (pourGraph fuel fdir cellids).bind fun g =>
    (Topo.sort limit (Topo.addConnections (g ++ [(-1, -1)]))).map List.dropLast

/-- `[cellids.index(cellid) for cellid in solution_order]` followed by `points[point_idx]`
(flow_directions.py:616,620): the cell of the point, `ValueError` if the number is not in the list. -/
def pointCell (cells : List (Fin N)) (x : ℤ) : Res (Fin N) :=
  match cells.find? (fun c : Fin N => decide (((c : ℕ) : ℤ) = x)) with
  | some c => .ok c
  | none => .err .valueError

/-- all the points of the solution order (flow_directions.py:616) -/
def pointCells (cells : List (Fin N)) : List ℤ → Res (List (Fin N))
  | [] => .ok []
  | x :: xs => (pointCell cells x).bind fun c => (pointCells cells xs).map (c :: ·)

/-- one iteration of the loop over the solution order (flow_directions.py:619-623) -/
def subStep (fuel : ℕ) (r : Res (State N × (Fin N → ℕ))) (c : Fin N) : Res (State N × (Fin N → ℕ)) :=
  r.bind fun x => watershed fuel x.1 c x.2

/-- `get_subbasins` (flow_directions.py:543-624); `cells` are the cells of the given points. -/
def subbasins (limit fuel : ℕ) (s : State N) (cells : List (Fin N)) :
    Res (State N × (Fin N → ℕ)) :=
  (pourOrder limit fuel s.fdir (cells.map (fun c : Fin N => ((c : ℕ) : ℤ)))).bind fun order =>
    (pointCells cells order).bind fun pts =>
      pts.foldl (subStep fuel) (.ok (s, fun _ => 0))

end Dany.Basin
