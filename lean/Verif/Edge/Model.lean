import Verif.Dict
import Mathlib.Data.List.Sort
import Mathlib.Data.Fin.VecNotation
import Mathlib.Data.List.FinRange

/-!
# Model of `dany/dem_conditioning.py`: `_identify_edge_nodes`
-/

namespace Dany.Edge

variable {N : ℕ}

/-- Drop the closing vertex (dem_conditioning.py:246-247); `poly[0]` of an empty polygon raises. -/
def openPoly (p : List ℕ) : Res (List ℕ) :=
  match p.head?, p.getLast? with
  | some a, some b => .ok (if a = b then p.dropLast else p)
  | _, _ => .err .indexError

/-- `tuple(sorted([a, b]))` (dem_conditioning.py:249). -/
def sortPair (a b : ℕ) : ℕ × ℕ := if a ≤ b then (a, b) else (b, a)

/-- Sides of a polygon, `poly[v - 1]` with `v = 0` meaning the last vertex
(dem_conditioning.py:248-249). -/
def polySides (p : List ℕ) : List (ℕ × ℕ) :=
  (List.range p.length).map fun v =>
    sortPair (if v = 0 then p.getD (p.length - 1) 0 else p.getD (v - 1) 0) (p.getD v 0)

/-- `geoms` and `node_nums`, zipped (dem_conditioning.py:243-250). -/
def geoms (iverts : Fin N → List ℕ) : List (Fin N) → Res (List ((ℕ × ℕ) × Fin N))
  | [] => .ok []
  | n :: l => (openPoly (iverts n)).bind fun p =>
      (geoms iverts l).map fun r => (polySides p).map (fun e => (e, n)) ++ r

/-- `edges_and_nodes` (dem_conditioning.py:252-254). -/
def edgesAndNodes (g : List ((ℕ × ℕ) × Fin N)) : Dict (ℕ × ℕ) (List (Fin N)) :=
  g.foldl (fun d x => d.addTo x.1 x.2) []

/-- `edge_nodes` (dem_conditioning.py:256-259): union of the one-element node sets. -/
def unionSingles (vals : List (List (Fin N))) : List (Fin N) :=
  vals.foldl (fun s nodes => if nodes.length = 1 then nodes.foldl setAdd s else s) []

/-- `_identify_edge_nodes` (dem_conditioning.py:229-261); cells are numbered `0..N-1` in the order of
`modelgrid.iverts`. -/
def edgeNodes (iverts : Fin N → List ℕ) : Res (List (Fin N)) :=
  (geoms iverts (List.finRange N)).map fun g =>
    (unionSingles (edgesAndNodes g).values).insertionSort (· ≤ ·)

end Dany.Edge
