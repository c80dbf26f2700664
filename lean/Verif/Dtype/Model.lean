import Verif.Seg.Model
import Mathlib.Data.Rat.Defs

/-!
# Stream arrays of other types than integers

`get_stream_connectivity` numbers reaches and segments by writing into a copy of the stream array
(stream_util.py:134-140, 164-167, 204, 240, 268, 275).  The copy has the type of the array that is given, so
that a Boolean array keeps `True` where a number is written.  `Reach.mf6` and `Seg.mf2005` are the same
functions for integer arrays.
-/

namespace Dany.Dtype

open Function Reach Seg

/-- A numpy type: its values, what an assignment of an integer leaves in an entry, and the integer an entry
is equal to, if any (there is none for NaN and fractions).  In all types considered, what is left by an
assignment is equal to an integer. -/
structure Dtype where
  W : Type
  store : ℤ → W
  val : W → Option ℤ
  stored : ∀ i, (val (store i)).isSome

/-- `int64`, without overflow -/
abbrev int : Dtype := ⟨ℤ, id, some, fun _ => rfl⟩

/-- `bool`: `True` equals 1, `False` equals 0 -/
abbrev bool : Dtype := ⟨Bool, fun i => decide (i ≠ 0), fun b => some (if b = true then 1 else 0), fun _ => rfl⟩

/-- `float64`: `none` is NaN; integers of the size of cell numbers are exact -/
abbrev float : Dtype := ⟨Option ℚ, fun i => some i, fun w => w.bind fun q => if q.den = 1 then some q.num else none,
  fun i => by simp⟩

variable {N : ℕ} (D : Dtype)

/-- `np.where(stream_array)[0]` (stream_util.py:135, 205): the entries that are not 0; NaN is not 0. -/
def strmNodes (sa : Fin N → D.W) : List (Fin N) :=
  (List.finRange N).filter (fun n => D.val (sa n) ≠ some 0)

/-- the number an entry is used as (as key of a dictionary, or compared with) once it has been stored -/
def code (w : D.W) : ℤ := (D.val w).getD 0

/-- the loop that assigns initial reach numbers (stream_util.py:138-140) -/
def numberReaches (sa : Fin N → D.W) : Fin N → D.W :=
  (strmNodes D sa).zipIdx.foldl (fun a p => update a p.1 (D.store ((p.2 : ℤ) + 1))) sa

/-- one iteration of the loop that renumbers the stream array (stream_util.py:164-167) -/
def renumStep (mp : Dict ℤ ℤ) (r : Res (Fin N → D.W)) (node : Fin N) : Res (Fin N → D.W) :=
  r.bind fun a => (mp.getE (code D (a node))).bind fun new => .ok (update a node (D.store new))

/-- `_mf6_stream_connectivity` (stream_util.py:109-171) -/
def mf6 (limit : ℕ) (fdir : Fin N → ℤ) (sa : Fin N → D.W) : Res ((Fin N → D.W) × Dict ℤ ℤ) :=
  let nodes := strmNodes D sa
  let num := numberReaches D sa
  (reachTopo fdir (fun n => code D (num n)) nodes).bind fun topo =>
    (Topo.sort limit topo).bind fun order =>
      ((mapper order).foldl (remapStep topo (mapper order)) (.ok [])).bind fun g =>
        (nodes.foldl (renumStep D (mapper order)) (.ok num)).map fun sa' => (sa', g)

/-- the graph of stream cells (stream_util.py:207-212) -/
def cellGraph (fdir : Fin N → ℤ) (sa : Fin N → D.W) : Dict (Fin N) (Option (Fin N)) :=
  (strmNodes D sa).foldl (fun g n => g.set n (dnOf fdir (strmNodes D sa) n)) []

/-- `nd_seg_rch`, `stream_array`, `seg_graph` -/
structure WState (N : ℕ) (D : Dtype) where
  nsr : List (Fin N × ℤ × ℤ)
  sa : Fin N → D.W
  sg : Dict ℤ ℤ

/-- the `while True` loop along a segment (stream_util.py:238-251) -/
def walk (g : Dict (Fin N) (Option (Fin N))) (starts : Dict (Fin N) ℤ) (seg : ℤ) :
    ℕ → Fin N → ℤ → WState N D → Res (WState N D)
  | 0, _, _, _ => .hang
  | fuel + 1, node, rch, st =>
    let nsr := st.nsr ++ [(node, seg, rch)]
    let sa := update st.sa node (D.store seg)
    (g.getE node).bind fun dn =>
      match dn with
      | none => .ok ⟨nsr, sa, st.sg.set seg 0⟩
      | some m =>
        match starts.get? m with
        | some s => .ok ⟨nsr, sa, st.sg.set seg s⟩
        | none => walk g starts seg fuel m (rch + 1) ⟨nsr, sa, st.sg⟩

/-- one iteration of `for node, seg in segstrts.items()` (stream_util.py:236-251) -/
def walkStep (fuel : ℕ) (g : Dict (Fin N) (Option (Fin N))) (starts : Dict (Fin N) ℤ)
    (r : Res (WState N D)) (e : Fin N × ℤ) : Res (WState N D) :=
  r.bind fun st => walk D g starts e.2 fuel e.1 1 st

/-- grouped segments (stream_util.py:214-251) -/
def grouped (fuel : ℕ) (g : Dict (Fin N) (Option (Fin N))) (sa : Fin N → D.W) : Res (WState N D) :=
  (segStarts g).foldl (walkStep D fuel g (segStarts g)) (.ok ⟨[], sa, []⟩)

/-- one iteration of the loop that builds `seg_graph` (stream_util.py:266-278) -/
def ungroupStep (nd : Dict (Fin N) ℤ) (r : Res (WState N D)) (e : Fin N × Option (Fin N)) :
    Res (WState N D) :=
  r.bind fun st => (nd.getE e.1).bind fun segup =>
    let sa := update st.sa e.1 (D.store segup)
    let nsr := st.nsr ++ [(e.1, segup, 1)]
    match e.2 with
    | none => .ok ⟨nsr, sa, st.sg.set segup 0⟩
    | some m => (nd.getE m).bind fun segdn =>
        if segdn = segup then .ok ⟨nsr, sa, st.sg.set segup 0⟩
        else .ok ⟨nsr, update sa m (D.store segdn), st.sg.set segup segdn⟩

/-- one segment per cell (stream_util.py:253-278) -/
def ungrouped (g : Dict (Fin N) (Option (Fin N))) (sa : Fin N → D.W) : Res (WState N D) :=
  g.foldl (ungroupStep D (g.foldl ndStep ([], 1)).1) (.ok ⟨[], sa, []⟩)

/-- `seg_array` (stream_util.py:299-304), an integer array -/
def segArray (mp : Dict ℤ ℤ) (sa : Fin N → D.W) : Fin N → ℤ :=
  mp.foldl (fun a e n => if D.val (sa n) = some e.1 then e.2 else a n) (fun _ => 0)

/-- from `seg_graph` on (stream_util.py:281-312) -/
def finish (limit : ℕ) (unstructured : Bool) (graph : Dict (Fin N) (Option (Fin N)))
    (st : WState N D) : Res (Out N) :=
  (Topo.sort limit (Topo.addConnections st.sg)).bind fun order =>
    (remapRows (segMapper order) st.nsr).bind fun nsr =>
      (st.sg.foldl (remapSeg (segMapper order)) (.ok [])).bind fun sg =>
        (reshapeCheck unstructured N).bind fun _ =>
          .ok ⟨segArray D (segMapper order) st.sa, graph, sg, nsr⟩

/-- `_mf2005_stream_connectivity` (stream_util.py:173-312) from the stream array on -/
def mf2005 (limit fuel : ℕ) (unstructured : Bool) (fdir : Fin N → ℤ) (sa : Fin N → D.W) (group : Bool) :
    Res (Out N) :=
  (if group = true then grouped D fuel (cellGraph D fdir sa) sa
    else ungrouped D (cellGraph D fdir sa) sa).bind fun st =>
    finish D limit unstructured (cellGraph D fdir sa) st

/-- `create_stream_vectors` sets NaN to 0 first (stream_util.py:337-339), the connectivity does not. -/
def dropNan (sa : Fin N → Option ℚ) : Fin N → Option ℚ := fun n => some ((sa n).getD 0)

end Dany.Dtype
