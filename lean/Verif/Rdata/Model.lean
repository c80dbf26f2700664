import Verif.Irun.Model
import Mathlib.Algebra.Order.Field.Basic
import Mathlib.Data.List.Sort

/-!
# Model of `Sfr2005.reach_data`, `segment_data` and `get_pygsflow_builder_object`

`K` is the type of lengths and elevations, `sqrt` stands for `np.sqrt`.  `none` is a value that is not a
finite number (a missing elevation, or a quotient by 0).
-/

namespace Dany.Rdata

open Function Reach Seg

variable {N : ℕ} {K : Type*}

/-- What is read from the structured grid: number of columns, cell centres, the top, the widths of columns
and rows (total functions here). -/
structure SGrid (N : ℕ) (K : Type*) where
  ncol : ℕ
  xc : Fin N → K
  yc : Fin N → K
  top : Fin N → Option K
  delr : ℕ → K
  delc : ℕ → K
  sqrt : K → K

/-- FloPy's `get_lrc(node)[0]` (called at stream_util.py:782,784) for a node of the first layer: row and
column -/
def SGrid.lrc (G : SGrid N K) (n : Fin N) : ℕ × ℕ := (n.val / G.ncol, n.val % G.ncol)

/-- FloPy's `get_node([(0, irch, jrch)])[0]` (called at stream_util.py:801) -/
def SGrid.getNode (G : SGrid N K) (p : ℕ × ℕ) : ℕ := p.1 * G.ncol + p.2

section Table

variable [Field K] [DecidableEq K]

/-- `np.sqrt(a2 + b2)` (stream_util.py:785-791 and 1048-1050) -/
def SGrid.dist (G : SGrid N K) (a b : Fin N) : K :=
  G.sqrt ((G.xc a - G.xc b) ^ 2 + (G.yc a - G.yc b) ^ 2)

/-- `(dem[a] - dem[b]) / len` (stream_util.py:793 and 1055) -/
def SGrid.grade (G : SGrid N K) (a b : Fin N) (len : K) : Option K :=
  match G.top a, G.top b with
  | some x, some y => if len = 0 then none else some ((x - y) / len)
  | _, _ => none

/-- one `record` (stream_util.py:802); `down` is its last entry, `none` if that has been popped -/
structure Draft (K : Type*) where
  node : ℕ
  i : ℕ
  j : ℕ
  iseg : ℤ
  ireach : ℤ
  rchlen : K
  strtop : Option K
  slope : Option K
  reachid : ℕ
  down : Option ℕ

/-- reach length and slope (stream_util.py:783-798) -/
def lenSlope (G : SGrid N K) (n : Fin N) (dn : Option (Fin N)) : K × Option K :=
  match dn with
  | some m =>
    if m ≠ n then (G.dist n m * (3 / 2), G.grade n m (G.dist n m * (3 / 2)))
    else (3 / 2 * ((G.delr (G.lrc n).2 + G.delc (G.lrc n).1) / 2), some (1 / 10000))
  | none => (3 / 2 * ((G.delr (G.lrc n).2 + G.delc (G.lrc n).1) / 2), some (1 / 10000))

/-- `basic_rec`, `reachid`, `seg_rid_lut` -/
structure RState (K : Type*) where
  recs : List (Draft K)
  reachid : ℕ
  lut : Dict ℤ ℕ

/-- the first cell of the next segment (stream_util.py:774-780); the branch for a segment without outlet
segment gives `None`, a segment without cells raises `IndexError`. -/
def outCell (nsr : List (Fin N × ℤ × ℤ)) (outseg : ℤ) : Res (Option (Fin N)) :=
  if outseg ≠ 0 then
    match nsr.find? (fun r => r.2.1 = outseg) with
    | some r => .ok (some r.1)
    | none => .err .indexError
  else .ok none

/-- `nd_dn` (stream_util.py:771-780); `rest` are the rows after the current one -/
def nextCell (nsr : List (Fin N × ℤ × ℤ)) (outseg : ℤ) (rest : List (Fin N × ℤ × ℤ)) :
    Res (Option (Fin N)) :=
  match rest with
  | r :: _ => .ok (some r.1)
  | [] => outCell nsr outseg

/-- the loop over the reaches of one segment (stream_util.py:770-812); the list holds the rows from index
`ix` on, so that the last one is the one with an empty rest. -/
def segLoop (G : SGrid N K) (nsr : List (Fin N × ℤ × ℤ)) (iseg outseg : ℤ) :
    ℕ → List (Fin N × ℤ × ℤ) → RState K → Res (RState K)
  | _, [], st => .ok st
  | ix, rec :: rest, st =>
    (nextCell nsr outseg rest).bind fun dn =>
      let down := if ix = 0 then some (st.reachid + 1) else if rest = [] then none else some (st.reachid + 1)
      let lut := if ix = 0 then st.lut.set iseg st.reachid else st.lut
      let ls := lenSlope G rec.1 dn
      let d : Draft K := ⟨G.getNode (G.lrc rec.1), (G.lrc rec.1).1, (G.lrc rec.1).2, iseg, rec.2.2, ls.1,
        G.top rec.1, ls.2, st.reachid, down⟩
      segLoop G nsr iseg outseg (ix + 1) rest ⟨st.recs ++ [d], st.reachid + 1, lut⟩

/-- one iteration of the loop over the segments (stream_util.py:766-812) -/
def segStep (G : SGrid N K) (nsr : List (Fin N × ℤ × ℤ)) (r : Res (RState K)) (e : ℤ × ℤ) : Res (RState K) :=
  r.bind fun st =>
    if e.1 ≠ 0 then segLoop G nsr e.1 e.2 0 (nsr.filter (fun r => r.2.1 = e.1)) st else .ok st

/-- the first pass (stream_util.py:759-812) -/
def firstPass (G : SGrid N K) (sg : Dict ℤ ℤ) (nsr : List (Fin N × ℤ × ℤ)) : Res (RState K) :=
  (sortItems sg).foldl (segStep G nsr) (.ok ⟨[], 1, []⟩)

/-- one iteration of the second pass (stream_util.py:814-823): the entry `rec[3]` looked up as a segment
number is the column. -/
def patchDown (sg : Dict ℤ ℤ) (lut : Dict ℤ ℕ) (d : Draft K) : Res (Draft K) :=
  match d.down with
  | some _ => .ok d
  | none =>
    match sg.get? (d.j : ℤ) with
    | none => .ok { d with down := some 0 }
    | some outseg => (lut.getE outseg).map fun r => { d with down := some r }

/-- the second pass (stream_util.py:814-823) -/
def secondPass (sg : Dict ℤ ℤ) (lut : Dict ℤ ℕ) : List (Draft K) → Res (List (Draft K))
  | [] => .ok []
  | d :: l => (patchDown sg lut d).bind fun d' => (secondPass sg lut l).map (d' :: ·)

/-- A row of FloPy's reach data; `outreach` keeps FloPy's default 0. -/
structure Row (K : Type*) where
  node : ℤ
  k : ℕ
  i : ℕ
  j : ℕ
  iseg : ℤ
  ireach : ℤ
  rchlen : K
  strtop : Option K
  slope : Option K
  strthick : K
  strhc1 : K
  reachID : ℕ
  outreach : ℤ
  deriving DecidableEq

/-- from a record to a row (stream_util.py:828-839) -/
def toRow (d : Draft K) : Row K :=
  ⟨d.node, 0, d.i, d.j, d.iseg, d.ireach, d.rchlen, d.strtop, d.slope, 1, 0, d.reachid, 0⟩

/-- the rows (stream_util.py:828-842): `basic_rec[0]` of an empty table raises `IndexError`. -/
def toTable (l : List (Draft K)) : Res (List (Row K)) :=
  if l = [] then .err .indexError else .ok (l.map toRow)

/-- `reach_data` from the stored network on (stream_util.py:759-842) -/
def reachTable (G : SGrid N K) (sg : Dict ℤ ℤ) (nsr : List (Fin N × ℤ × ℤ)) : Res (List (Row K)) :=
  (firstPass G sg nsr).bind fun st => (secondPass sg st.lut st.recs).bind toTable

end Table

/-- A row of FloPy's segment data -/
structure SRow (K : Type*) where
  nseg : ℤ
  outseg : ℤ
  param : String → K

/-- `segment_data` from the stored network on (stream_util.py:875-885); FloPy's default is 0. -/
def segmentTable (K : Type*) [Zero K] (sg : Dict ℤ ℤ) : List (SRow K) :=
  (sortItems sg).map fun e => ⟨e.1, e.2, fun _ => 0⟩

/-- The attributes of an `Sfr2005` object -/
structure Obj (N : ℕ) where
  fdir : Fin N → ℤ
  streamArray : Option (Fin N → ℤ)
  net : Option (Dict ℤ ℤ × List (Fin N × ℤ × ℤ))

/-- the array given or stored (stream_util.py:744-751, 860-867 and 903-910) -/
def Obj.source (o : Obj N) : Option (Fin N → ℤ) → Res (Fin N → ℤ)
  | some sa => .ok sa
  | none => match o.streamArray with
    | some sa => .ok sa
    | none => .err .assertionError

/-- `_mf2005_stream_connectivity` called on the object (stream_util.py:718-720, 753-757, 869-873): stores the
numbered array and the network. -/
def Obj.connect (limit fuel : ℕ) (o : Obj N) (sa : Fin N → ℤ) (group : Bool) : Res (Obj N × Out N) :=
  (mf2005 limit fuel false o.fdir sa group).map fun out : Out N =>
    ({ o with streamArray := some out.sa, net := some (out.sg, out.nsr) }, out)

/-- the network used by `reach_data` and `segment_data` (stream_util.py:753-757 and 869-873): the stored
one if there is one -/
def Obj.network (limit fuel : ℕ) (o : Obj N) (arg : Option (Fin N → ℤ)) (group : Bool) :
    Res (Obj N × (Dict ℤ ℤ × List (Fin N × ℤ × ℤ))) :=
  (o.source arg).bind fun sa =>
    match o.net with
    | some net => .ok (o, net)
    | none => (o.connect limit fuel sa group).map fun r => (r.1, (r.2.sg, r.2.nsr))

/-- `reach_data(stream_array, group_segments=…)` (stream_util.py:722-842) -/
def Obj.reachData [Field K] [DecidableEq K] (limit fuel : ℕ) (G : SGrid N K) (o : Obj N)
    (arg : Option (Fin N → ℤ)) (group : Bool) : Res (Obj N × List (Row K)) :=
  (o.network limit fuel arg group).bind fun r => (reachTable G r.2.1 r.2.2).map fun t => (r.1, t)

/-- `segment_data(stream_array, group_segments=…)` (stream_util.py:844-885) -/
def Obj.segmentData (K : Type*) [Zero K] (limit fuel : ℕ) (o : Obj N) (arg : Option (Fin N → ℤ)) (group : Bool) :
    Res (Obj N × List (SRow K)) :=
  (o.network limit fuel arg group).map fun r => (r.1, segmentTable K r.2.1)

/-- `irunbnd(group_segments=…)` without arrays (stream_util.py:887-952) -/
def Obj.irun (limit fuel cfuel : ℕ) (o : Obj N) (group : Bool) : Res (Obj N × (Fin N → ℤ)) :=
  (o.source none).bind fun sa =>
    (match o.net with
      | some _ => Res.ok (o, sa)
      | none => (o.connect limit fuel sa group).map fun r : Obj N × Out N => (r.1, r.2.sa)).bind fun r =>
        (Irun.irunbnd cfuel o.fdir r.2).map fun ir => (r.1, ir)

/-! ### The builder -/

/-- the supported keywords (stream_util.py:986-1007) -/
def keywords : List String :=
  ["strhc1", "strthick", "etsw", "flow", "icalc", "iprior", "pptsw", "roughch", "runoff", "width1", "width2",
    "default_slope", "min_slope", "max_slope"]

/-- `for k, v in kwargs` (stream_util.py:1009-1019): the loop runs over the keyword names and unpacks each
name into its characters.  A name of two characters is taken as a keyword of one character; the assignment
that would follow if that were supported is left out (it never is, see `kwLoop_cons`). -/
def kwLoop : List String → Res Unit
  | [] => .ok ()
  | name :: rest =>
    match name.toList with
    | [a, _] => if String.ofList [a] ∈ keywords then kwLoop rest else .err .keyError
    | _ => .err .valueError

section Builder

variable [Field K] [LinearOrder K]

/-- the limits (stream_util.py:1057-1060): comparisons with NaN are false -/
def clamp (slope : Option K) : Option K :=
  match slope with
  | none => none
  | some s => if s > 1 then some 1 else if s < 1 / 10000 then some (1 / 10000) else some s

/-- one iteration of the loop over the reaches (stream_util.py:1036-1065); only `node` and `outreach` of
rows are read, and these are not assigned, so the rows can be treated one by one.  `none` as a quotient by
zero does not occur: the distance has been tested. -/
def fixRow (G : SGrid N K) (tbl : List (Row K)) (rec : Row K) : Res (Row K) :=
  (if rec.outreach - 1 ≥ tbl.length then .ok rec.node
    else (pyIndex tbl.length (rec.outreach - 1)).map fun k => (tbl.get k).node).bind fun nodeDn =>
    (pyIndex N rec.node).bind fun n => (pyIndex N nodeDn).map fun m =>
      let slope := if G.dist n m = 0 then some (1 / 1000) else G.grade n m (G.dist n m)
      { rec with strtop := G.top n, slope := clamp slope, strhc1 := 1, strthick := 1 }

/-- the loop over the reaches -/
def fixRows (G : SGrid N K) (tbl : List (Row K)) : List (Row K) → Res (List (Row K))
  | [] => .ok []
  | d :: l => (fixRow G tbl d).bind fun d' => (fixRows G tbl l).map (d' :: ·)

/-- the defaults of segment data (stream_util.py:991-1001) -/
def segDefaults (K : Type*) [Field K] : Dict String K :=
  [("etsw", 0), ("flow", 1), ("icalc", 1), ("iprior", 0), ("pptsw", 0), ("roughch", 25 / 1000), ("runoff", 0),
    ("width1", 10), ("width2", 10)]

/-- setting them (stream_util.py:1067-1070) -/
def fixSeg (s : SRow K) : SRow K :=
  { s with param := fun k => (Dict.get? (segDefaults K) k).getD (s.param k) }

/-- a table passed by the caller, or the one computed -/
def orElse {α β : Type*} (given : Option α) (o : β) (compute : Res (β × α)) : Res (β × α) :=
  match given with
  | some a => .ok (o, a)
  | none => compute

/-- `get_pygsflow_builder_object` (stream_util.py:954-1072); `kw` lists the names of the keywords other than
`group_segments`. -/
def Obj.builder (limit fuel cfuel : ℕ) (G : SGrid N K) (o : Obj N) (rd : Option (List (Row K)))
    (sd : Option (List (SRow K))) (ir : Option (Fin N → ℤ)) (applyDefaults group : Bool) (kw : List String) :
    Res (Obj N × List (Row K) × List (SRow K) × (Fin N → ℤ)) :=
  (kwLoop kw).bind fun _ =>
    (orElse rd o (o.reachData limit fuel G none group)).bind fun r =>
      (orElse sd r.1 (r.1.segmentData K limit fuel none group)).bind fun s =>
        (orElse ir s.1 (s.1.irun limit fuel cfuel group)).bind fun i =>
          if applyDefaults = true then
            (fixRows G r.2 r.2).map fun rows => (i.1, rows, s.2.map fixSeg, i.2)
          else .ok (i.1, r.2, s.2, i.2)

end Builder

end Dany.Rdata
