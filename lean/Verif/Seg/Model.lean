import Verif.Reach.Model
import Mathlib.Data.Fintype.Basic

/-!
# Model of the MODFLOW-2005 stream network (`StreamBase._mf2005_stream_connectivity`)

A row of `_node_seg_rch` is a triple (cell, segment, reach).
-/

namespace Dany.Seg

open Function Reach

variable {N : ℕ}

/-- `node_dn` (stream_util.py:209-211): the cell `fdir` names, if it is one of the stream cells.  A
negative code is never equal to a cell number. -/
def dnOf (fdir : Fin N → ℤ) (nodes : List (Fin N)) (n : Fin N) : Option (Fin N) :=
  nodes.find? (fun m : Fin N => decide (((m : ℕ) : ℤ) = fdir n))

/-- the graph of stream cells (stream_util.py:207-212); `None` if the stream is left -/
def cellGraph (fdir sa : Fin N → ℤ) : Dict (Fin N) (Option (Fin N)) :=
  (strmNodes sa).foldl (fun g n => g.set n (dnOf fdir (strmNodes sa) n)) []

/-- `[i for i in graph.values() if i is not None]` (stream_util.py:216) -/
def nodesDn (g : Dict (Fin N) (Option (Fin N))) : List (Fin N) := g.values.filterMap id

/-- headwaters (stream_util.py:220-223); the counter `iseg` is the second component -/
def headStep (dns : List (Fin N)) (st : Dict (Fin N) ℤ × ℤ) (node : Fin N) : Dict (Fin N) ℤ × ℤ :=
  if node ∉ dns then (st.1.set node st.2, st.2 + 1) else st

/-- confluences (stream_util.py:225-230) -/
def confStep (dns : List (Fin N)) (st : Dict (Fin N) ℤ × ℤ) (node : Fin N) : Dict (Fin N) ℤ × ℤ :=
  if dns.count node > 1 then
    if node ∉ st.1.keys then (st.1.set node st.2, st.2 + 1) else st
  else st

/-- `segstrts` (stream_util.py:218-230) -/
def segStarts (g : Dict (Fin N) (Option (Fin N))) : Dict (Fin N) ℤ :=
  ((nodesDn g).foldl (confStep (nodesDn g)) (g.keys.foldl (headStep (nodesDn g)) ([], 1))).1

/-- what the loops over the segments build: `nd_seg_rch`, `stream_array`, `seg_graph` -/
structure WState (N : ℕ) where
  nsr : List (Fin N × ℤ × ℤ)
  sa : Fin N → ℤ
  sg : Dict ℤ ℤ

/-- the `while True` loop along a segment (stream_util.py:238-251) -/
def walk (g : Dict (Fin N) (Option (Fin N))) (starts : Dict (Fin N) ℤ) (seg : ℤ) :
    ℕ → Fin N → ℤ → WState N → Res (WState N)
  | 0, _, _, _ => .hang
  | fuel + 1, node, rch, st =>
    let nsr := st.nsr ++ [(node, seg, rch)]
    let sa := update st.sa node seg
    (g.getE node).bind fun dn =>
      match dn with
      | none => .ok ⟨nsr, sa, st.sg.set seg 0⟩
      | some m =>
        match starts.get? m with
        | some s => .ok ⟨nsr, sa, st.sg.set seg s⟩
        | none => walk g starts seg fuel m (rch + 1) ⟨nsr, sa, st.sg⟩

/-- one iteration of `for node, seg in segstrts.items()` (stream_util.py:236-251) -/
def walkStep (fuel : ℕ) (g : Dict (Fin N) (Option (Fin N))) (starts : Dict (Fin N) ℤ)
    (r : Res (WState N)) (e : Fin N × ℤ) : Res (WState N) :=
  r.bind fun st => walk g starts e.2 fuel e.1 1 st

/-- grouped segments (stream_util.py:214-251) -/
def grouped (fuel : ℕ) (g : Dict (Fin N) (Option (Fin N))) (sa : Fin N → ℤ) : Res (WState N) :=
  (segStarts g).foldl (walkStep fuel g (segStarts g)) (.ok ⟨[], sa, []⟩)

/-- numbering in the ungrouped case (stream_util.py:257-263) -/
def ndStep (st : Dict (Fin N) ℤ × ℤ) (e : Fin N × Option (Fin N)) : Dict (Fin N) ℤ × ℤ :=
  let st := if e.1 ∉ st.1.keys then (st.1.set e.1 st.2, st.2 + 1) else st
  match e.2 with
  | none => st
  | some m => if m ∉ st.1.keys then (st.1.set m st.2, st.2 + 1) else st

/-- one iteration of the loop that builds `seg_graph` (stream_util.py:266-278) -/
def ungroupStep (nd : Dict (Fin N) ℤ) (r : Res (WState N)) (e : Fin N × Option (Fin N)) :
    Res (WState N) :=
  r.bind fun st => (nd.getE e.1).bind fun segup =>
    let sa := update st.sa e.1 segup
    let nsr := st.nsr ++ [(e.1, segup, 1)]
    match e.2 with
    | none => .ok ⟨nsr, sa, st.sg.set segup 0⟩
    | some m => (nd.getE m).bind fun segdn =>
        if segdn = segup then .ok ⟨nsr, sa, st.sg.set segup 0⟩
        else .ok ⟨nsr, update sa m segdn, st.sg.set segup segdn⟩

/-- one segment per cell (stream_util.py:253-278) -/
def ungrouped (g : Dict (Fin N) (Option (Fin N))) (sa : Fin N → ℤ) : Res (WState N) :=
  g.foldl (ungroupStep (g.foldl ndStep ([], 1)).1) (.ok ⟨[], sa, []⟩)

/-- `segid_mapper` (stream_util.py:285-286) -/
def segMapper (order : List ℤ) : Dict ℤ ℤ := (mapper order).set 0 0

/-- renumbering of `nd_seg_rch` (stream_util.py:289-291) -/
def remapRows (mp : Dict ℤ ℤ) : List (Fin N × ℤ × ℤ) → Res (List (Fin N × ℤ × ℤ))
  | [] => .ok []
  | r :: rs => (mp.getE r.2.1).bind fun s => (remapRows mp rs).map ((r.1, s, r.2.2) :: ·)

/-- one entry of the renumbered `seg_graph` (stream_util.py:294-297) -/
def remapSeg (mp : Dict ℤ ℤ) (r : Res (Dict ℤ ℤ)) (e : ℤ × ℤ) : Res (Dict ℤ ℤ) :=
  r.bind fun g => (mp.getE e.1).bind fun a => (mp.getE e.2).bind fun b => .ok (g.set a b)

/-- `seg_array` (stream_util.py:299-304) -/
def segArray (mp : Dict ℤ ℤ) (sa : Fin N → ℤ) : Fin N → ℤ :=
  mp.foldl (fun a e n => if sa n = e.1 then e.2 else a n) (fun _ => 0)

/-- what a successful call stores: `_stream_array`, `_graph`, `_seg_graph`, `_node_seg_rch` -/
structure Out (N : ℕ) where
  sa : Fin N → ℤ
  graph : Dict (Fin N) (Option (Fin N))
  sg : Dict ℤ ℤ
  nsr : List (Fin N × ℤ × ℤ)

/-- the final `reshape` to `modelgrid.shape[1:]` (stream_util.py:306-308): on an unstructured grid
this is the empty shape, which only fits an array of one element. -/
def reshapeCheck (unstructured : Bool) (N : ℕ) : Res Unit :=
  if unstructured = true ∧ N ≠ 1 then .err .valueError else .ok ()

/-- from `seg_graph` on (stream_util.py:281-312) -/
def finish (limit : ℕ) (unstructured : Bool) (graph : Dict (Fin N) (Option (Fin N)))
    (st : WState N) : Res (Out N) :=
  (Topo.sort limit (Topo.addConnections st.sg)).bind fun order =>
    (remapRows (segMapper order) st.nsr).bind fun nsr =>
      (st.sg.foldl (remapSeg (segMapper order)) (.ok [])).bind fun sg =>
        (reshapeCheck unstructured N).bind fun _ =>
          .ok ⟨segArray (segMapper order) st.sa, graph, sg, nsr⟩

/-- `_mf2005_stream_connectivity` (stream_util.py:173-312) from the stream array on. -/
def mf2005 (limit fuel : ℕ) (unstructured : Bool) (fdir sa : Fin N → ℤ) (group : Bool) : Res (Out N) :=
  (if group = true then grouped fuel (cellGraph fdir sa) sa
    else ungrouped (cellGraph fdir sa) sa).bind fun st =>
    finish limit unstructured (cellGraph fdir sa) st

end Dany.Seg
