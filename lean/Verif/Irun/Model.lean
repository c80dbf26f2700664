import Verif.Seg.Model

/-!
# Model of `Sfr2005.irunbnd` (stream_util.py:887-952)
-/

namespace Dany.Irun

open Function Reach Seg

variable {N : ℕ}

/-- `fdir_r[node]` (stream_util.py:925-930): the cells that flow into `node`, in increasing order.  The
dictionary has the key exactly if this list is not empty; negative codes are keys that no cell has. -/
def ups (fdir : Fin N → ℤ) (n : Fin N) : List (Fin N) :=
  (List.finRange N).filter (fun m => fdir m = ((n : ℕ) : ℤ))

/-- `irunbnd[upnodes] = iseg` (stream_util.py:949) -/
def fill (irun : Fin N → ℤ) (l : List (Fin N)) (iseg : ℤ) : Fin N → ℤ :=
  fun n => if n ∈ l then iseg else irun n

/-- the `while stack` loop (stream_util.py:939-950).  The list holds the stack upside down: its head is
the element `pop()` takes. -/
def climb (fdir : Fin N → ℤ) (iseg : ℤ) :
    ℕ → List (Fin N) → List (Fin N) → (Fin N → ℤ) → Res (List (Fin N) × (Fin N → ℤ))
  | 0, _, _, _ => .hang
  | _ + 1, [], visited, irun => .ok (visited, irun)
  | k + 1, node :: stack, visited, irun =>
    if ups fdir node = [] then climb fdir iseg k stack visited irun
    else if node ∈ visited then climb fdir iseg k stack visited irun
    else climb fdir iseg k ((ups fdir node).reverse ++ stack) (visited ++ [node])
      (fill irun (ups fdir node) iseg)

/-- one iteration of `for stream_cell in stream_cells` (stream_util.py:935-950) -/
def cellStep (fuel : ℕ) (fdir sa : Fin N → ℤ) (r : Res (List (Fin N) × (Fin N → ℤ))) (s : Fin N) :
    Res (List (Fin N) × (Fin N → ℤ)) :=
  r.bind fun st => climb fdir (sa s) fuel [s] st.1 (update st.2 s (sa s))

/-- `np.where((stream_array > 0) & (~np.isnan(stream_array)))[0]` (stream_util.py:922); integers are
never NaN. -/
def streamCells (sa : Fin N → ℤ) : List (Fin N) := (List.finRange N).filter (fun n => 0 < sa n)

/-- `irunbnd` from the stream array on (stream_util.py:921-952) -/
def irunbnd (fuel : ℕ) (fdir sa : Fin N → ℤ) : Res (Fin N → ℤ) :=
  ((streamCells sa).foldl (cellStep fuel fdir sa) (.ok ([], fun _ => 0))).map Prod.snd

/-- the attributes of an `Sfr2005` object read by `irunbnd` -/
structure Obj (N : ℕ) where
  fdir : Fin N → ℤ
  streamArray : Option (Fin N → ℤ)
  segGraph : Option (Dict ℤ ℤ)

/-- the array given or stored (stream_util.py:903-910) -/
def Obj.source (o : Obj N) : Option (Fin N → ℤ) → Res (Fin N → ℤ)
  | some sa => .ok sa
  | none => match o.streamArray with
    | some sa => .ok sa
    | none => .err .assertionError

/-- `get_stream_connectivity(stream_array, group_segments)` as called by `irunbnd`
(stream_util.py:912-919): stores and returns the numbered array. -/
def Obj.number (limit wfuel : ℕ) (unstructured : Bool) (o : Obj N) (sa : Fin N → ℤ) (group : Bool) :
    Res (Obj N × (Fin N → ℤ)) :=
  (mf2005 limit wfuel unstructured o.fdir sa group).map fun out : Out N =>
    ({ o with streamArray := some out.sa, segGraph := some out.sg }, out.sa)

/-- `irunbnd(stream_array, segment_graph, group_segments)` (stream_util.py:887-952): segments are numbered
anew only if no segment graph is given and none is stored. -/
def Obj.irunbnd (limit wfuel fuel : ℕ) (unstructured : Bool) (o : Obj N) (arg : Option (Fin N → ℤ))
    (segmentGraph : Option (Dict ℤ ℤ)) (group : Bool) : Res (Obj N × (Fin N → ℤ)) :=
  (o.source arg).bind fun sa =>
    (if segmentGraph.isNone ∧ o.segGraph.isNone then o.number limit wfuel unstructured sa group
      else .ok (o, sa)).bind fun r =>
        (Irun.irunbnd fuel o.fdir r.2).map fun ir => (r.1, ir)

end Dany.Irun
