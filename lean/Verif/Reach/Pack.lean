import Verif.Reach.Model
import Mathlib.Analysis.SpecialFunctions.Pow.Real

/-!
# The table of `packagedata`: cell ids, constant columns, outlet lengths, `detuple`

`Reach/Model` has one record per reach, with the cell number for the cell id and the length of outlet reaches
as an input.  Here are the rest of the columns and the outlet length.
-/

namespace Dany.Reach

variable {N : ℕ} {K : Type*}

/-- The sides of a polygon that the code measures: from each vertex to the next, not from the last back to the
first (`for i in range(1, len(verts))`, stream_util.py:596-602). -/
def sides [Field K] (sqrt : K → K) : List (K × K) → List K
  | a :: b :: l => sqrt ((a.1 - b.1) ^ 2 + (a.2 - b.2) ^ 2) :: sides sqrt (b :: l)
  | _ => []

/-- `np.nanmean(dist)` of the sides (stream_util.py:596-603): `none` is the NaN of an empty mean. -/
def outletDist [Field K] (sqrt : K → K) (verts : List (K × K)) : Option K :=
  match sides sqrt verts with
  | [] => none
  | l => some (l.sum / l.length)

/-- The type of the model grid (stream_util.py:606-611) with, for structured grids, the numbers of rows and
columns. -/
inductive Kind where
  | structured (nrow ncol : ℕ)
  | vertex
  | unstructured

/-- the cell id (stream_util.py:606-611).  `get_lrc` is FloPy's and is taken to be
`np.unravel_index(node, (nlay, nrow, ncol))`. -/
def Kind.cellid : Kind → ℕ → List ℤ
  | .structured nrow ncol, n => [(n / (nrow * ncol) : ℕ), (n % (nrow * ncol) / ncol : ℕ), (n % ncol : ℕ)]
  | .vertex, n => [0, n]
  | .unstructured, n => [n]

/-- an entry of the table -/
inductive Val (K : Type*) where
  | int (i : ℤ)
  | num (x : K)
  | tup (l : List ℤ)
  deriving DecidableEq

/-- a numpy structured array: the names of the fields and the records -/
structure Table (K : Type*) where
  names : List String
  rows : List (List (Val K))
  deriving DecidableEq

/-- `t[i][name]` -/
def Table.get (t : Table K) (i : ℕ) (name : String) : Option (Val K) :=
  (t.rows[i]?).bind fun r => (t.names.idxOf? name).bind fun j => r[j]?

/-- `t[name]` -/
def Table.col (t : Table K) (name : String) : List (Option (Val K)) :=
  (List.range t.rows.length).map fun i => t.get i name

/-- one tuple of `reachdata` (stream_util.py:613-620) -/
def fullRow [Field K] (kind : Kind) (r : PRec N K) : List (Val K) :=
  [.int r.ifno, .tup (kind.cellid r.node), .num r.rlen, .num 0, .num r.rgrd, .num r.rtp, .num 1, .num 0, .num 0,
    .int r.ncon, .num 1, .int 0]

/-- the structured array (stream_util.py:623-637) -/
def packTable [Field K] (kind : Kind) (recs : List (PRec N K)) : Table K where
  names := ["ifno", "cellid", "rlen", "rwid", "rgrd", "rtp", "rbth", "rhk", "man", "ncon", "ustrf", "ndv"]
  rows := recs.map (fullRow kind)

/-- the items of a record's cell id; `none` is the `TypeError` of iterating over a number -/
def Val.items : Val K → Option (List ℤ)
  | .tup l => some l
  | _ => none

/-- the names that replace "cellid" (stream_util.py:659-664) -/
def idNames : ℕ → List String
  | 3 => ["k", "i", "j"]
  | 2 => ["k", "node"]
  | _ => ["node"]

/-- `rec[0]`, the items of `rec[1]`, `list(rec)[2:]` (stream_util.py:669) -/
def detupleRow : List (Val K) → Res (List (Val K))
  | v :: c :: l => match c.items with
    | some ids => .ok (v :: ids.map Val.int ++ l)
    | none => .err .typeError
  | _ => .err .indexError

/-- all records (stream_util.py:667-670) -/
def detupleRows : List (List (Val K)) → Res (List (List (Val K)))
  | [] => .ok []
  | r :: rs => (detupleRow r).bind fun r' => (detupleRows rs).map (r' :: ·)

/-- `_detuple` (stream_util.py:643-672): `recarray["cellid"][0]` of an empty table raises `IndexError`, and
`np.array` raises `ValueError` for a record of the wrong length. -/
def detuple (t : Table K) : Res (Table K) :=
  match t.rows with
  | [] => .err .indexError
  | r :: _ => match (r[1]?).bind Val.items with
    | none => .err .typeError
    | some ids =>
      let names := t.names.take 1 ++ idNames ids.length ++ t.names.drop 2
      (detupleRows t.rows).bind fun rows =>
        if ∀ x ∈ rows, x.length = names.length then .ok ⟨names, rows⟩ else .err .valueError

/-- `packagedata(stream_array, detuple)` (stream_util.py:538-641) -/
def Obj.packageTable [Field K] [DecidableEq K] (sqrt : K → K) (G : Grid N K) (kind : Kind) (limit : ℕ)
    (o : Obj N) (arg : Option (Fin N → ℤ)) (det : Bool) : Res (Obj N × Table K) :=
  (o.packageData sqrt G limit arg).bind fun r =>
    if det then (detuple (packTable kind r.2)).map fun t => (r.1, t) else .ok (r.1, packTable kind r.2)

end Dany.Reach
