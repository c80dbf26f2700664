import Verif.Base
import Mathlib.Analysis.SpecialFunctions.Complex.Arg
import Mathlib.Analysis.SpecialFunctions.Sqrt
import Mathlib.Data.List.FinRange

/-!
# Model of the geometry in `dany/flow_directions.py`: areas, slopes, aspects, vectors, lengths

Floating-point numbers are modelled by real numbers (or, for areas, by any ordered field); NaN elevations
by `none`.  A quotient `x / 0` with `x ≠ 0`, infinite in NumPy, is `none` as a slope.
-/

namespace Dany.Geom

variable {N : ℕ}

/-! ### Areas -/

section Area

variable {K : Type*} [Field K] [LinearOrder K]

/-- `xverts[:, i - 1] * yverts[:, i] - yverts[:, i - 1] * xverts[:, i]` (flow_directions.py:118) -/
def cross (a b : K × K) : K := a.1 * b.2 - a.2 * b.1

/-- the sum over the vertices that follow `prev` -/
def sumFrom : K × K → List (K × K) → K
  | _, [] => 0
  | prev, v :: l => cross prev v + sumFrom v l

/-- `area_x2` of one cell (flow_directions.py:115-118): index −1 is the last vertex. -/
def twice (p : List (K × K)) : K :=
  match p.getLast? with
  | none => 0
  | some l => sumFrom l p

/-- `np.abs(area_x2 / 2.)` (flow_directions.py:120) -/
def area (p : List (K × K)) : K := |twice p / 2|

/-- FloPy's `irregular_shape_patch` (called at flow_directions.py:112-114) for one cell: the last vertex
is repeated up to `m` vertices. -/
def patch (m : ℕ) (p : List (K × K)) : List (K × K) :=
  match p.getLast? with
  | none => p
  | some l => p ++ List.replicate (m - p.length) l

/-- `_shoelace_area` (flow_directions.py:98-121): all polygons are padded to the longest one. -/
def shoelace (polys : Fin N → List (K × K)) (n : Fin N) : K :=
  area (patch ((List.finRange N).foldl (fun m k => max m (polys k).length) 0) (polys n))

end Area

/-! ### Directions -/

/-- A flow-direction array used as a NumPy index (`x0[fdir]`): the cells it denotes, `IndexError` if one
number is out of range. -/
def targets (fdir : Fin N → ℤ) : Res (Fin N → Fin N) :=
  if h : ∀ n, -(N : ℤ) ≤ fdir n ∧ fdir n < N then
    .ok (fun n => if h0 : 0 ≤ fdir n then ⟨(fdir n).toNat, by have := h n; omega⟩
      else ⟨(N + fdir n).toNat, by have := h n; omega⟩)
  else .err .indexError

/-- `np.sqrt(asq + bsq)` (flow_directions.py:706-708) -/
noncomputable def dist (xc yc : Fin N → ℝ) (a b : Fin N) : ℝ :=
  Real.sqrt ((xc a - xc b) ^ 2 + (yc a - yc b) ^ 2)

/-- `np.where((drop < 1e-06) & (drop > 0), 0, drop)` (flow_directions.py:705) -/
noncomputable def flat (drop : ℝ) : ℝ := if drop < 1 / 1000000 ∧ 0 < drop then 0 else drop

/-- one entry of `slope` (flow_directions.py:704-711): NaN, which comes from a missing elevation or from
`0 / 0`, is replaced by 0. -/
noncomputable def slopeAt (xc yc : Fin N → ℝ) (dem : Fin N → Option ℝ) (n m : Fin N) : Option ℝ :=
  match dem n, dem m with
  | some a, some b =>
    if dist xc yc n m = 0 then (if flat (a - b) = 0 then some 0 else none)
    else some (flat (a - b) / dist xc yc n m)
  | _, _ => some 0

/-- `slope` (flow_directions.py:689-712) -/
noncomputable def slope (fdir : Fin N → ℤ) (xc yc : Fin N → ℝ) (dem : Fin N → Option ℝ) :
    Res (Fin N → Option ℝ) :=
  (targets fdir).map fun d n => slopeAt xc yc dem n (d n)

/-- `np.arctan2(y, x) * (180 / np.pi)` and the correction of negative angles (flow_directions.py:729-730);
`np.arctan2(y, x)` is the argument of `x + i y`, 0 for `x = y = 0`. -/
noncomputable def degrees (x y : ℝ) : ℝ :=
  let a := Complex.arg ⟨x, y⟩ * (180 / Real.pi)
  if a < 0 then a + 360 else a

/-- `aspect` (flow_directions.py:714-731) -/
noncomputable def aspect (fdir : Fin N → ℤ) (xc yc : Fin N → ℝ) : Res (Fin N → ℝ) :=
  (targets fdir).map fun d n => degrees (xc (d n) - xc n) (yc (d n) - yc n)

/-- `vectors` (flow_directions.py:733-749) -/
noncomputable def vectors (fdir : Fin N → ℤ) (xc yc : Fin N → ℝ) : Res ((Fin N → ℝ) × (Fin N → ℝ)) :=
  (aspect fdir xc yc).map fun a =>
    (fun n => Real.cos (a n * (Real.pi / 180)), fun n => Real.sin (a n * (Real.pi / 180)))

/-! ### Lengths -/

/-- `np.mean` of one coordinate -/
noncomputable def mean (l : List ℝ) : ℝ := l.sum / l.length

/-- `_get_shared_vertex` (flow_directions.py:626-641): the vertices of the first polygon that occur in the
second one; their mean if there are several.  (The mean of a single vertex is the vertex.)  Vertex numbers
are indices of FloPy's vertex table, here a total function. -/
noncomputable def sharedVertex (verts : ℕ → ℝ × ℝ) (iv0 iv1 : List ℕ) : Res (ℝ × ℝ) :=
  let shared := (iv0.filter (· ∈ iv1)).map verts
  match shared with
  | [] => .err .indexError
  | [v] => .ok v
  | _ => .ok (mean (shared.map Prod.fst), mean (shared.map Prod.snd))

/-- a list of results, or the first exception -/
def collect {α : Type*} : List (Res α) → Res (List α)
  | [] => .ok []
  | r :: l => r.bind fun a => (collect l).map (a :: ·)

/-- one iteration of `_calculate_hru_len` (flow_directions.py:657-673) -/
noncomputable def hruLenAt (fdir : Fin N → ℤ) (iverts : Fin N → List ℕ) (verts : ℕ → ℝ × ℝ)
    (xc yc : Fin N → ℝ) (node : Fin N) : Res ℝ :=
  (pyIndex N (fdir node)).bind fun dn =>
    let up := (List.finRange N).filter (fun u => fdir u = ((node : ℕ) : ℤ))
    (collect ((dn :: up).map fun m => sharedVertex verts (iverts node) (iverts m))).map fun pts =>
      let ds := pts.map fun p => Real.sqrt ((p.1 - xc node) ^ 2 + (p.2 - yc node) ^ 2)
      ds.sum / (ds.length / 2)

/-- `hru_len` (flow_directions.py:643-687) -/
noncomputable def hruLen (fdir : Fin N → ℤ) (iverts : Fin N → List ℕ) (verts : ℕ → ℝ × ℝ)
    (xc yc : Fin N → ℝ) : Res (List ℝ) :=
  collect ((List.finRange N).map (hruLenAt fdir iverts verts xc yc))

end Dany.Geom
