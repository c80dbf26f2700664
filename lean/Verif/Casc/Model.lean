import Verif.Reach.Model
import Mathlib.Algebra.Order.Field.Basic

/-!
# Model of the PRMS cascades (`PrmsStreams`, stream_util.py:1124-1342)

A link is a triple (hru_up, hru_down, fraction); cells are numbered from 0 until `get_cascades` adds 1
to both ids.  `K` is the type of slopes and fractions.  `active` is `basin_boundary != 0`; without a
boundary every cell is active.
-/

namespace Dany.Casc

open Reach

variable {N : ℕ} {K : Type*}

/-- `fdir[basin_boundary.ravel() == 0] = -9` (stream_util.py:1227-1229, 1287-1289) -/
def masked (fdir : Fin N → ℤ) (active : Fin N → Bool) (n : Fin N) : ℤ :=
  if active n = false then -9 else fdir n

/-- one iteration of the loop of `_build_many_to_one_cascades` (stream_util.py:1234-1252) -/
def oneLinks [One K] (fd : Fin N → ℤ) (n : Fin N) : Res (List (ℤ × ℤ × K)) :=
  if fd n = -9 then .ok []
  else
    let idxs := (List.finRange N).filter (fun m => fd m = fd n)
    if idxs.length = 0 then .ok []
    else (pyIndex N (fd n)).bind fun j =>
      .ok (if fd j = -9 then [(fd n, fd n, 1)]
        else idxs.map (fun m : Fin N => (((m : ℕ) : ℤ), fd n, 1)))

/-- the results of a loop body that extends a list, concatenated -/
def collect {α β : Type*} (f : α → Res (List β)) : List α → Res (List β)
  | [] => .ok []
  | a :: l => (f a).bind fun x => (collect f l).map (x ++ ·)

/-- `_build_many_to_one_cascades` (stream_util.py:1202-1254) -/
def manyToOne [One K] (fdir : Fin N → ℤ) (active : Fin N → Bool) : Res (List (ℤ × ℤ × K)) :=
  collect (oneLinks (masked fdir active)) (List.finRange N)

section Field

variable [Field K] [LinearOrder K]

/-- `fcells[node]` and `_fneighbors[node, flow_to]` (stream_util.py:1296-1298, 1317-1318): the
neighbours of non-positive slope.  `none` stands for NaN, which is never `<= 0`; the padding entries of
`_fneighbors` have slope 1e10 and are left out of `nbs`. -/
def candidates (nbs : List (Fin N × Option K)) : List (Fin N × K) :=
  nbs.filterMap fun e => match e.2 with
    | none => none
    | some s => if s ≤ 0 then some (e.1, s) else none

/-- `np.sum(np.abs(dn_slopes))` -/
def absSum (l : List (Fin N × K)) : K := (l.map (fun e => |e.2|)).sum

/-- the links of a landscape cell (stream_util.py:1317-1340).  Where all slopes are 0, NumPy gives NaN
fractions, which are not `> 0.01`; here 0/0 is 0, which is not `> 0.01` either. -/
def landLinks (fd : Fin N → ℤ) (nbs : List (Fin N × Option K)) (n : Fin N) : List (ℤ × ℤ × K) :=
  let conns := (candidates nbs).filter (fun e => fd e.1 ≠ 0)
  let kept := conns.filter (fun e => 1 / 100 < |e.2| / absSum conns)
  kept.map (fun e : Fin N × K => (((n : ℕ) : ℤ), ((e.1 : ℕ) : ℤ), |e.2| / absSum kept))

/-- one iteration of the loop of `_build_many_to_many_cascades` (stream_util.py:1300-1340) -/
def manyLinks (fd sa : Fin N → ℤ) (nbs : Fin N → List (Fin N × Option K)) (n : Fin N) :
    Res (List (ℤ × ℤ × K)) :=
  if fd n = -9 then .ok []
  else if sa n > 0 then (pyIndex N (fd n)).bind fun j =>
    .ok [(((n : ℕ) : ℤ), if fd j = -9 then ((n : ℕ) : ℤ) else fd n, 1)]
  else .ok (landLinks fd (nbs n) n)

/-- `_build_many_to_many_cascades` (stream_util.py:1256-1342); `nbs` holds each cell's neighbours with
their slopes, as computed by `_calculate_slopes`. -/
def manyToMany (fdir : Fin N → ℤ) (active : Fin N → Bool) (sa : Fin N → ℤ)
    (nbs : Fin N → List (Fin N × Option K)) : Res (List (ℤ × ℤ × K)) :=
  collect (manyLinks (masked fdir active) sa nbs) (List.finRange N)

/-- one row of the result of `get_cascades`: `hru_up_id`, `hru_down_id`, `hru_pct_up`,
`hru_strmseg_down_id` -/
structure Row (K : Type*) where
  up : ℤ
  down : ℤ
  pct : K
  strmseg : ℤ
  deriving DecidableEq

/-- the last loop of `get_cascades` (stream_util.py:1190-1198) -/
def finishRows (sa : Fin N → ℤ) : List (ℤ × ℤ × K) → Res (List (Row K))
  | [] => .ok []
  | l :: ls => (pyIndex N l.2.1).bind fun j =>
      (finishRows sa ls).map
        (⟨l.1 + 1, l.2.1 + 1, l.2.2, if sa j = 0 then 0 else sa j⟩ :: ·)

/-- the stream array given or stored, and the connectivity computed if there is none
(stream_util.py:1166-1172); `group_segments` has its default `False`. -/
def cascadeStreams (limit : ℕ) (o : Obj N) (arg : Option (Fin N → ℤ)) : Res (Obj N × (Fin N → ℤ)) :=
  (match arg with | some sa => Res.ok sa | none => o.stream).bind fun sa =>
    match o.graph with
    | some _ => .ok (o, sa)
    | none => (o.connectivity limit (some sa)).bind fun r => r.1.stream.map fun sa' => (r.1, sa')

/-- `get_cascades` (stream_util.py:1124-1200) -/
def getCascades (limit : ℕ) (nbs : Fin N → List (Fin N × Option K)) (o : Obj N)
    (arg : Option (Fin N → ℤ)) (active : Fin N → Bool) (many2many : Bool) :
    Res (Obj N × List (Row K)) :=
  (cascadeStreams limit o arg).bind fun r =>
    (if many2many = true then manyToMany o.fdir active r.2 nbs else manyToOne o.fdir active).bind
      fun links => (finishRows r.2 links).map fun rows => (r.1, rows)

end Field

end Dany.Casc
