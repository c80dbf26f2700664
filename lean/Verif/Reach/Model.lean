import Verif.Topo.Model
import Mathlib.Algebra.Field.Basic

/-!
# Model of the MODFLOW 6 stream network (`StreamBase`, `Sfr6` in `dany/stream_util.py`)

A stream array holds an integer per cell, nonzero at stream cells.  `K` is the type of lengths and
elevations, `sqrt` stands for `np.sqrt`.  A reach graph is a dictionary whose values may be Python's
`None` (they never are in a MODFLOW 6 graph, but the attribute is shared with the cell graph of
MODFLOW-2005).
-/

namespace Dany.Reach

open Function

variable {N : ℕ} {K : Type*}

/-- `np.where(stream_array)[0]` (stream_util.py:135) -/
def strmNodes (sa : Fin N → ℤ) : List (Fin N) := (List.finRange N).filter (fun n => sa n ≠ 0)

/-- the loop that assigns initial reach numbers (stream_util.py:138-140) -/
def numberReaches (sa : Fin N → ℤ) : Fin N → ℤ :=
  (strmNodes sa).zipIdx.foldl (fun a p => update a p.1 ((p.2 : ℤ) + 1)) sa

/-- one iteration of the loop that builds the topology (stream_util.py:144-148) -/
def connStep (fdir num : Fin N → ℤ) (r : Res (Dict ℤ ℤ)) (node : Fin N) : Res (Dict ℤ ℤ) :=
  r.bind fun t => (pyIndex N (fdir node)).bind fun c => .ok (t.set (num node) (num c))

/-- the topology (stream_util.py:143-148) -/
def reachTopo (fdir num : Fin N → ℤ) (nodes : List (Fin N)) : Res (Dict ℤ ℤ) :=
  nodes.foldl (connStep fdir num) (.ok [])

/-- `{rchid: ix + 1 for ix, rchid in enumerate(topo.sort())}` (stream_util.py:150) -/
def mapper (order : List ℤ) : Dict ℤ ℤ :=
  order.zipIdx.foldl (fun m p => m.set p.1 ((p.2 : ℤ) + 1)) []

/-- one iteration of the loop that renumbers the graph (stream_util.py:154-161) -/
def remapStep (topo mp : Dict ℤ ℤ) (r : Res (Dict ℤ ℤ)) (e : ℤ × ℤ) : Res (Dict ℤ ℤ) :=
  r.bind fun g => (topo.getE e.1).bind fun old =>
    (if old = 0 then .ok 0 else mp.getE old).bind fun new => .ok (g.set e.2 new)

/-- one iteration of the loop that renumbers the stream array (stream_util.py:164-167) -/
def renumStep (mp : Dict ℤ ℤ) (r : Res (Fin N → ℤ)) (node : Fin N) : Res (Fin N → ℤ) :=
  r.bind fun a => (mp.getE (a node)).bind fun new => .ok (update a node new)

/-- `_mf6_stream_connectivity` (stream_util.py:109-171): the new stream array and the graph.  `limit`
is the interpreter's recursion limit. -/
def mf6 (limit : ℕ) (fdir sa : Fin N → ℤ) : Res ((Fin N → ℤ) × Dict ℤ ℤ) :=
  let nodes := strmNodes sa
  let num := numberReaches sa
  (reachTopo fdir num nodes).bind fun topo =>
    (Topo.sort limit topo).bind fun order =>
      ((mapper order).foldl (remapStep topo (mapper order)) (.ok [])).bind fun g =>
        (nodes.foldl (renumStep (mapper order)) (.ok num)).map fun sa' => (sa', g)

/-- the MODFLOW 6 graph as stored in the attribute shared with MODFLOW-2005 -/
def someVals (g : Dict ℤ ℤ) : Dict ℤ (Option ℤ) := g.map (fun e => (e.1, some e.2))

/-- `sorted(graph.items())`: the keys differ, so the order is that of the keys. -/
def sortItems {α : Type*} (g : Dict ℤ α) : List (ℤ × α) := g.insertionSort (fun a b => a.1 ≤ b.1)

/-- one iteration of the loop that fills `conn_dict` (stream_util.py:525-530); `-1 * None` raises
`TypeError`, an unknown downstream reach `KeyError`. -/
def cdStep (r : Res (Dict ℤ (List ℤ))) (e : ℤ × Option ℤ) : Res (Dict ℤ (List ℤ)) :=
  r.bind fun cd =>
    match e.2 with
    | none => .err .typeError
    | some dn =>
      if dn ≠ 0 then
        if dn = e.1 then .ok cd
        else (cd.getE e.1).bind fun row =>
          let cd := cd.set e.1 (row ++ [-1 * dn])
          (cd.getE dn).bind fun row' => .ok (cd.set dn (e.1 :: row'))
      else .ok cd

/-- `connectiondata(graph)` (stream_util.py:524-536). -/
def connectiondata (g : Dict ℤ (Option ℤ)) : Res (List (ℤ × List ℤ)) :=
  ((sortItems g).foldl cdStep (.ok ((g.keys.insertionSort (· ≤ ·)).map (fun k => (k, []))))).map
    fun cd => cd.map fun e => (e.1 - 1, e.2.map fun ii => if ii > 0 then ii - 1 else ii + 1)

/-- `np.where(stream_array == rch)[0][0]` (stream_util.py:583,585) -/
def firstNode (sa : Fin N → ℤ) (rch : ℤ) : Res (Fin N) :=
  match (List.finRange N).find? (fun n => sa n = rch) with
  | some n => .ok n
  | none => .err .indexError

/-- The grid data read by `packagedata`: cell centres, mean length of the polygon sides (used at
outlets; `Reach/Pack` computes it from the polygon), slopes and the model top. -/
structure Grid (N : ℕ) (K : Type*) where
  xc : Fin N → K
  yc : Fin N → K
  side : Fin N → K
  slope : Fin N → K
  top : Fin N → K

/-- A record of `packagedata`; the constant columns are left out, and `node` stands for the cell id
(layer 0), which FloPy's `get_lrc` computes from it. -/
structure PRec (N : ℕ) (K : Type*) where
  ifno : ℤ
  node : Fin N
  rlen : K
  rgrd : K
  rtp : K
  ncon : ℕ
  deriving DecidableEq

/-- the cell of the downstream reach (stream_util.py:584-587); comparing with `None` finds nothing -/
def dnNode (sa : Fin N → ℤ) (node : Fin N) : Option ℤ → Res (Fin N)
  | none => .err .indexError
  | some t => if t ≠ 0 then firstNode sa t else .ok node

/-- one record of `packagedata` (stream_util.py:583-621); `cnt` is the running number. -/
def pRecord [Field K] [DecidableEq K] (sqrt : K → K) (G : Grid N K) (sa : Fin N → ℤ)
    (cd : List (ℤ × List ℤ)) (e : ℤ × Option ℤ) (cnt : ℕ) : Res (PRec N K) :=
  (firstNode sa e.1).bind fun node => (dnNode sa node e.2).bind fun dn =>
    let dist := sqrt ((G.xc node - G.xc dn) ^ 2 + (G.yc node - G.yc dn) ^ 2)
    let dist := if dist = 0 then G.side node else dist
    match cd[cnt]? with
    | none => .err .indexError
    | some row => .ok
        { ifno := e.1 - 1, node := node, rlen := dist * (3 / 2), rgrd := G.slope node / (3 / 2),
          rtp := G.top node, ncon := row.2.length }

/-- the loop over the sorted graph (stream_util.py:581-621) -/
def pRecords [Field K] [DecidableEq K] (sqrt : K → K) (G : Grid N K) (sa : Fin N → ℤ)
    (cd : List (ℤ × List ℤ)) : List (ℤ × Option ℤ) → ℕ → Res (List (PRec N K))
  | [], _ => .ok []
  | e :: es, cnt => (pRecord sqrt G sa cd e cnt).bind fun r =>
      (pRecords sqrt G sa cd es (cnt + 1)).map (r :: ·)

/-- `packagedata` from the graph and the stream array on (stream_util.py:574-641). -/
def packageRows [Field K] [DecidableEq K] (sqrt : K → K) (G : Grid N K) (sa : Fin N → ℤ)
    (g : Dict ℤ (Option ℤ)) : Res (List (PRec N K)) :=
  (connectiondata g).bind fun cd => pRecords sqrt G sa cd (sortItems g) 0

/-- The part of an `Sfr6` object that its methods read and write: `_fdir`, `_stream_array`,
`_graph` (stream_util.py:22-28). -/
structure Obj (N : ℕ) where
  fdir : Fin N → ℤ
  streamArray : Option (Fin N → ℤ)
  graph : Option (Dict ℤ (Option ℤ))

/-- `set_stream_array` (stream_util.py:57-75); also the effect of `delineate_streams` on the object
(stream_util.py:106). -/
def Obj.setStream (o : Obj N) (sa : Fin N → ℤ) : Obj N := { o with streamArray := some sa }

/-- the array the connectivity is computed from (stream_util.py:125-132) -/
def Obj.source (o : Obj N) : Option (Fin N → ℤ) → Res (Fin N → ℤ)
  | some sa => .ok sa
  | none => match o.streamArray with
    | some sa => .ok sa
    | none => .err .assertionError

/-- `get_stream_connectivity(stream_array)` (stream_util.py:481-498, 125-171). -/
def Obj.connectivity (limit : ℕ) (o : Obj N) (arg : Option (Fin N → ℤ)) :
    Res (Obj N × Dict ℤ ℤ) :=
  (o.source arg).bind fun sa =>
    (mf6 limit o.fdir sa).map fun r =>
      ({ o with streamArray := some r.1, graph := some (someVals r.2) }, r.2)

/-- the graph used when none is given (stream_util.py:511-522, 559-572): the stored one, or a new one -/
def Obj.graphOf (limit : ℕ) (o : Obj N) : Res (Obj N × Dict ℤ (Option ℤ)) :=
  match o.graph with
  | some g => .ok (o, g)
  | none => (o.connectivity limit none).map fun r => (r.1, someVals r.2)

/-- `connectiondata()` without argument (stream_util.py:500-536). -/
def Obj.connData (limit : ℕ) (o : Obj N) : Res (Obj N × List (ℤ × List ℤ)) :=
  (o.graphOf limit).bind fun r => (connectiondata r.2).map fun cd => (r.1, cd)

/-- the property `stream_array` (stream_util.py:39-55) -/
def Obj.stream (o : Obj N) : Res (Fin N → ℤ) :=
  match o.streamArray with
  | none => .err .assertionError
  | some sa => .ok sa

/-- `packagedata(stream_array)` (stream_util.py:558-641): with an argument the records are looked up
in that very array. -/
def Obj.packageData [Field K] [DecidableEq K] (sqrt : K → K) (G : Grid N K) (limit : ℕ) (o : Obj N) :
    Option (Fin N → ℤ) → Res (Obj N × List (PRec N K))
  | some sa => (o.connectivity limit (some sa)).bind fun r =>
      (packageRows sqrt G sa (someVals r.2)).map fun l => (r.1, l)
  | none => (o.graphOf limit).bind fun r =>
      r.1.stream.bind fun sa => (packageRows sqrt G sa r.2).map fun l => (r.1, l)

end Dany.Reach
