import Verif.Dict
import Mathlib.Data.List.Sort

/-!
# Model of `Topology` (`dany/stream_util.py`)

Segment numbers are integers.  Python's recursion limit is an explicit parameter: the recursive
method may be nested at most `limit` calls deep.
-/

namespace Dany.Topo

/-- `_sort_util` (stream_util.py:1434-1463).  The first argument is the number of nested calls still
allowed by the interpreter, `visited` the dictionary of flags and `stack` the result list. -/
def sortUtil (topo : Dict ℤ ℤ) : ℕ → ℤ → Dict ℤ Bool → List ℤ → Res (Dict ℤ Bool × List ℤ)
  | 0, _, _, _ => .err .recursionError
  | limit + 1, seg, visited, stack =>
    let visited := visited.set seg true
    (if seg = 0 then .ok 0 else topo.getE seg).bind fun ioutseg =>
      (visited.getE ioutseg).bind fun seen =>
        (if seen then .ok (visited, stack) else sortUtil topo limit ioutseg visited stack).bind fun r =>
          if seg = 0 then .ok r
          else if ioutseg = 0 then .ok (r.1, r.2 ++ [seg])
          else .ok (r.1, seg :: r.2)

/-- `visited = {0: False}` and the loop over the keys (stream_util.py:1475-1477). -/
def initVisited (topo : Dict ℤ ℤ) : Dict ℤ Bool :=
  topo.keys.foldl (fun v k => v.set k false) [(0, false)]

/-- one iteration of `for i in sorted(visited)` (stream_util.py:1480-1485) -/
def sortStep (limit : ℕ) (topo : Dict ℤ ℤ) (r : Res (Dict ℤ Bool × List ℤ)) (i : ℤ) :
    Res (Dict ℤ Bool × List ℤ) :=
  r.bind fun s =>
    if i = 0 then .ok s
    else (s.1.getE i).bind fun seen =>
      if seen then .ok s else sortUtil topo limit i s.1 s.2

/-- `Topology.sort` (stream_util.py:1465-1487). -/
def sort (limit : ℕ) (topo : Dict ℤ ℤ) : Res (List ℤ) :=
  (((initVisited topo).keys.insertionSort (· ≤ ·)).foldl (sortStep limit topo)
    (.ok (initVisited topo, []))).map Prod.snd

/-- The dictionary built by a sequence of `add_connection` calls (stream_util.py:1421-1432). -/
def addConnections (l : List (ℤ × ℤ)) : Dict ℤ ℤ := l.foldl (fun t e => t.set e.1 e.2) []

end Dany.Topo
