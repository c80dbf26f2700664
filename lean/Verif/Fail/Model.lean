import Verif.Fail.Prog
import Verif.Dirs.Model
import Verif.Basin.Model

/-!
# `FlowDirections` as an object whose calls can fail or be interrupted (`dany/flow_directions.py`)

The calculations are those of `Dirs`, `Acc` and `Basin`; here they are put together statement by statement as far as
the attributes of the object are concerned.
-/

namespace Dany.Fail

open Function Dirs

variable {N : ℕ} {K : Type*}

/-- The attributes of a `FlowDirections` object (flow_directions.py:29-64): cell centres, `_dem` (and its last entry
`big`), `_neighbors`, `_area`, `_fdir`, `_facc`, `_fdir_r`.  `_min_cell` is a function of the DEM.  `_fneighbors`,
`_threshold` and `_stack` are written before they are read in every call and left out. -/
structure Fd (N : ℕ) (K : Type*) where
  geo : Geo N K
  dem : Fin N → Option K
  big : K
  rows : Fin N → List (Entry N)
  area : Fin N → K
  fdir : Option (Fin N → ℤ)
  facc : Option (Fin N → K)
  fdirR : Option (List (Fin N → ℤ))

/-- the type of the grid, with the numbers of rows and columns of a structured one -/
inductive GridType where
  | structured (nrow ncol : ℕ)
  | other

/-- an item of `terminal_cells`: a number or a tuple of two -/
inductive TCell where
  | num (t : ℤ)
  | pair (r c : ℤ)
  deriving DecidableEq

/-- `[[0] + list(i) for i in terminal_cells]` (flow_directions.py:414-416): `list` of a number raises `TypeError`. -/
def pairs : List TCell → Res (List (ℤ × ℤ))
  | [] => .ok []
  | .num _ :: _ => .err .typeError
  | .pair r c :: l => (pairs l).map ((r, c) :: ·)

/-- FloPy's `get_node` (called at flow_directions.py:414) for cells of the first layer: `np.ravel_multi_index` raises
`ValueError` for an index out of range. -/
def getNodes (nrow ncol : ℕ) : List (ℤ × ℤ) → Res (List TCell)
  | [] => .ok []
  | (r, c) :: l =>
    if 0 ≤ r ∧ r < nrow ∧ 0 ≤ c ∧ c < ncol then (getNodes nrow ncol l).map (.num (r * ncol + c) :: ·)
    else .err .valueError

/-- `nodes` (flow_directions.py:411-420): the type of the first item decides. -/
def nodes (g : GridType) (l : List TCell) : Res (List TCell) :=
  match l with
  | .pair _ _ :: _ => match g with
    | .structured nrow ncol => (pairs l).bind (getNodes nrow ncol)
    | .other => .err .assertionError
  | _ => .ok l

/-- an attribute that has to be there: `None` has no attributes -/
def attr {α : Type*} : Option α → Res α
  | some a => .ok a
  | none => .err .attributeError

/-- an array that has to be there: `None` cannot be indexed -/
def item {α : Type*} : Option α → Res α
  | some a => .ok a
  | none => .err .typeError

namespace Fd

open Prog

/-- `self._fdir[tc] = tc` (flow_directions.py:422-423); a tuple of two as index of a flat array raises
`IndexError`. -/
def storeTerminal : TCell → Prog (Fd N K) Unit
  | .num t => (read fun _ => pyIndex N t).bind fun c =>
      write fun o => { o with fdir := o.fdir.map fun f => update f c t }
  | .pair _ _ => read fun _ => .err .indexError

/-- `_fill_irregular_neighbor_array` (flow_directions.py:135-140): the lists are padded one after the other, in
place. -/
def padRows : Prog (Fd N K) Unit :=
  (read fun o => .ok (pad o.rows)).bind fun padded =>
    each (List.finRange N) fun n => write fun o => { o with rows := update o.rows n (padded n) }

/-- the loop over the cells of `_calculate_flowcell` (flow_directions.py:191-324); `fc` is the local variable
`fcells`.  The writes of one iteration are taken together. -/
def cellLoop (fuel : ℕ) : List (Fin N) → (Fin N → List (Entry N)) → Prog (Fd N K) Unit
  | [], _ => pure ()
  | ix :: l, fc =>
    (read fun o => (attr o.fdir).bind fun f =>
      cellStep o.rows fuel (fun n => (o.dem n).isSome) (.ok ⟨f, fc⟩) ix).bind fun s : State N =>
        (write fun o => { o with fdir := some s.fdir }).seq (cellLoop fuel l s.fc)

variable [Field K] [LinearOrder K]

/-- `flow_directions(burn_threshold, terminal_cells)` (flow_directions.py:387-428) -/
def dirs (fuel : ℕ) (g : GridType) (thr : K) (terminals : List TCell) : Prog (Fd N K) (Fin N → ℤ) :=
  (write fun o => { o with fdir := some fun _ => -1 }).seq <|
  (read fun o => setMin (minCells o.dem o.big) (fun _ => -1)).bind fun f0 =>
  (write fun o => { o with fdir := some f0 }).seq <|
  (read fun _ => nodes g terminals).bind fun ns =>
  (each ns storeTerminal).seq <|
  padRows.seq <|
  (read fun o => fcells o.geo o.dem thr o.big o.rows).bind fun fc =>
  (cellLoop fuel (List.finRange N) fc).seq <|
  read fun o => attr o.fdir

/-- `flow_accumulation(as_cells)` (flow_directions.py:430-475): works on copies, stores the result at the end. -/
def accumulate (fuel : ℕ) (asCells : Bool) : Prog (Fd N K) (Fin N → K) :=
  (read fun o => (attr o.fdir).bind fun f => Acc.flowAccumulation fuel f o.area asCells).bind fun a =>
  (write fun o => { o with facc := some a }).seq <| pure a

omit [Field K] [LinearOrder K] in
/-- `_reverse_flow_directions` (flow_directions.py:347-369): the table is stored empty and filled cell by cell. -/
def reverse : Prog (Fd N K) (List (Fin N → ℤ)) :=
  (read fun o => .ok o.fdirR).bind fun r =>
    match r with
    | some rows => pure rows
    | none =>
      (read fun o => (attr o.fdir).bind fun f => (Acc.getNidp f).map fun nidp => (f, Basin.npMax nidp)).bind fun x =>
      (write fun o => { o with fdirR := some (List.replicate x.2 (fun _ => -1)) }).seq <|
      (each (List.finRange N) fun ix => (read fun _ => pyIndex N (x.1 ix)).bind fun c =>
        write fun o => { o with fdirR := o.fdirR.map (Basin.place c ((ix : ℕ) : ℤ)) }).seq <|
      read fun o => attr o.fdirR

omit [Field K] [LinearOrder K] in
/-- `get_watershed_boundary` (flow_directions.py:520-541) from the cell of the point on -/
def watershed (fuel : ℕ) (cell : Fin N) (sub0 : Fin N → ℕ) : Prog (Fd N K) (Fin N → ℕ) :=
  reverse.bind fun rows => read fun o => (attr o.fdir).bind fun f => (Acc.getNidp f).bind fun nidp =>
    Basin.bfs rows nidp (Basin.npMax sub0 + 1) fuel (Basin.column rows (nidp cell) cell)
      (update sub0 cell (Basin.npMax sub0 + 1))

omit [Field K] [LinearOrder K] in
/-- the loop over the points of `get_subbasins` (flow_directions.py:619-623) -/
def subLoop (fuel : ℕ) : List (Fin N) → (Fin N → ℕ) → Prog (Fd N K) (Fin N → ℕ)
  | [], sub => pure sub
  | c :: l, sub => (watershed fuel c sub).bind fun sub => subLoop fuel l sub

omit [Field K] [LinearOrder K] in
/-- `get_subbasins` (flow_directions.py:543-624) from the cells of the points on; the first use of the directions is an
index (line 602), or the shape of the array (line 618) if there are no points -/
def subbasins (limit fuel : ℕ) (cells : List (Fin N)) : Prog (Fd N K) (Fin N → ℕ) :=
  (read fun o => (if cells = [] then attr o.fdir else item o.fdir).bind fun f =>
    (Basin.pourOrder limit fuel f (cells.map (fun c : Fin N => ((c : ℕ) : ℤ)))).bind (Basin.pointCells cells)).bind
      fun pts => subLoop fuel pts (fun _ => 0)

/-- A call of a method that writes attributes -/
inductive Call (N : ℕ) (K : Type*) where
  | dirs (fuel : ℕ) (thr : K) (terminals : List TCell)
  | accumulate (fuel : ℕ) (asCells : Bool)
  | watershed (fuel : ℕ) (cell : Fin N)
  | subbasins (limit fuel : ℕ) (cells : List (Fin N))

/-- what it does to the object: the states in order, as `Prog` -/
def Call.prog (g : GridType) : Call N K → Prog (Fd N K) Unit
  | .dirs fuel thr t => (Fd.dirs fuel g thr t).bind fun _ => pure ()
  | .accumulate fuel b => (Fd.accumulate fuel b).bind fun _ => pure ()
  | .watershed fuel c => (Fd.watershed fuel c (fun _ => 0)).bind fun _ => pure ()
  | .subbasins limit fuel l => (Fd.subbasins limit fuel l).bind fun _ => pure ()

/-- A history: calls that ran to their end (value or exception: `none`) or were interrupted after some number of
writes -/
def history (g : GridType) (o : Fd N K) (h : List (Call N K × Option ℕ)) : Fd N K :=
  h.foldl (fun o c => match c.2 with
    | none => (c.1.prog g).after o
    | some k => (c.1.prog g).cut o k) o

end Fd

end Dany.Fail
