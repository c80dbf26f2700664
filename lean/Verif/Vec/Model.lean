import Verif.Seg.Model

/-!
# Model of `StreamBase.create_stream_vectors` (stream_util.py:314-379)

`V` is the type of a vertex (the pair of centre coordinates of a cell).
-/

namespace Dany.Vec

open Seg Reach

variable {N : ℕ} {V : Type*}

/-- `list(nsr[nsr[:, 1] == seg, :][:, 0])` (stream_util.py:359-361): the cells of a segment in row order -/
def cellsOf (nsr : List (Fin N × ℤ × ℤ)) (s : ℤ) : List (Fin N) :=
  (nsr.filter (fun r => r.2.1 = s)).map Prod.fst

/-- `headwaters` (stream_util.py:344-348): the segments that are no segment's outseg -/
def headSegs (sg : Dict ℤ ℤ) : List ℤ := sg.keys.filter (fun k => k ∉ sg.values)

/-- `vectors`, `processed`, `stack`, `headwaters` -/
structure VState (V : Type*) where
  vectors : Dict ℤ (List V)
  processed : List ℤ
  stack : List ℤ
  heads : List ℤ

/-- recording a vector (stream_util.py:372-377) -/
def record (xy : Fin N → V) (seg : ℤ) (nodes : List (Fin N)) (st : VState V) : VState V :=
  if (nodes.map xy).length > 1 then
    { st with vectors := st.vectors.set seg (nodes.map xy), processed := st.processed ++ [seg] }
  else st

/-- the body of the `while` loop for the segment `seg` (stream_util.py:359-377) -/
def vecBody (sg : Dict ℤ ℤ) (nsr : List (Fin N × ℤ × ℤ)) (xy : Fin N → V) (seg : ℤ) (st : VState V) :
    Res (VState V) :=
  (sg.getE seg).bind fun dn =>
    if dn ≠ 0 then
      let st := if dn ∉ st.processed then { st with stack := st.stack ++ [dn] } else st
      match cellsOf nsr dn with
      | [] => .err .indexError
      | m :: _ => .ok (record xy seg (cellsOf nsr seg ++ [m]) st)
    else .ok (record xy seg (cellsOf nsr seg) st)

/-- the `while headwaters or stack` loop (stream_util.py:354-377) -/
def vecLoop (sg : Dict ℤ ℤ) (nsr : List (Fin N × ℤ × ℤ)) (xy : Fin N → V) :
    ℕ → VState V → Res (Dict ℤ (List V))
  | 0, _ => .hang
  | fuel + 1, st =>
    match st.stack with
    | seg :: stack => (vecBody sg nsr xy seg { st with stack := stack }).bind (vecLoop sg nsr xy fuel)
    | [] => match st.heads with
      | seg :: heads => (vecBody sg nsr xy seg { st with heads := heads }).bind (vecLoop sg nsr xy fuel)
      | [] => .ok st.vectors

/-- stream_util.py:354-377, from the connectivity on -/
def vectorsOf (vfuel : ℕ) (sg : Dict ℤ ℤ) (nsr : List (Fin N × ℤ × ℤ)) (xy : Fin N → V) :
    Res (Dict ℤ (List V)) :=
  vecLoop sg nsr xy vfuel ⟨[], [], [], headSegs sg⟩

/-- `create_stream_vectors` (stream_util.py:314-379) on the array `sa` -/
def createVectors (limit fuel vfuel : ℕ) (unstructured : Bool) (fdir sa : Fin N → ℤ) (group : Bool)
    (xy : Fin N → V) : Res (Dict ℤ (List V)) :=
  (mf2005 limit fuel unstructured fdir sa group).bind fun out => vectorsOf vfuel out.sg out.nsr xy

/-- the cell graph in the attribute `_graph`, which `Sfr6` reads as a reach graph (stream_util.py:309) -/
def asGraph (g : Dict (Fin N) (Option (Fin N))) : Dict ℤ (Option ℤ) :=
  g.map (fun e => (((e.1 : ℕ) : ℤ), e.2.map (fun m : Fin N => ((m : ℕ) : ℤ))))

/-- `create_stream_vectors()` called on an `Sfr6` object: the connectivity step overwrites the
stream array and the graph (stream_util.py:306-309). -/
def objVectors (limit fuel vfuel : ℕ) (unstructured : Bool) (group : Bool) (xy : Fin N → V)
    (o : Obj N) : Res (Obj N × Dict ℤ (List V)) :=
  (o.source none).bind fun sa =>
    (mf2005 limit fuel unstructured o.fdir sa group).bind fun out =>
      (vectorsOf vfuel out.sg out.nsr xy).map fun v =>
        ({ o with streamArray := some out.sa, graph := some (asGraph out.graph) }, v)

end Dany.Vec
