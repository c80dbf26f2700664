import Verif.Casc.Model
import Verif.Vec.Model
import Verif.Geom.Model

/-!
# Model of `PrmsStreams`: connectivity, `get_cascades` with its keyword, and the pyGSFLOW builder object
(stream_util.py:1096-1200, 1344-1402, 1532-1583)

Real numbers for slopes, angles, areas and fractions.
-/

namespace Dany.Prms

open Reach Casc Seg

variable {N : ℕ}

/-- `PrmsStreams.get_stream_connectivity` (stream_util.py:1096-1122): one reach per cell, or MODFLOW-2005
segments. -/
def connect (limit fuel : ℕ) (unstructured : Bool) (o : Obj N) (arg : Option (Fin N → ℤ)) (group : Bool) :
    Res (Obj N × Dict ℤ ℤ) :=
  if group = true then
    (o.source arg).bind fun sa =>
      (mf2005 limit fuel unstructured o.fdir sa true).map fun out : Out N =>
        ({ o with streamArray := some out.sa, graph := some (Vec.asGraph out.graph) }, out.sg)
  else o.connectivity limit arg

/-- the stream array `get_cascades` works with (stream_util.py:1166-1172); `kwGroup` is the value of the
keyword `group_segments`, which is only looked at if there is no connectivity yet. -/
def cascadeStreams (limit fuel : ℕ) (unstructured : Bool) (o : Obj N) (arg : Option (Fin N → ℤ))
    (kwGroup : Bool) : Res (Obj N × (Fin N → ℤ)) :=
  (match arg with | some sa => Res.ok sa | none => o.stream).bind fun sa =>
    match o.graph with
    | some _ => .ok (o, sa)
    | none => (connect limit fuel unstructured o (some sa) kwGroup).bind fun r =>
        r.1.stream.map fun sa' => (r.1, sa')

section Field

variable {K : Type*} [Field K] [LinearOrder K]

/-- `get_cascades` (stream_util.py:1124-1200) -/
def cascades (limit fuel : ℕ) (unstructured : Bool) (nbs : Fin N → List (Fin N × Option K)) (o : Obj N)
    (arg : Option (Fin N → ℤ)) (active : Fin N → Bool) (many2many kwGroup : Bool) :
    Res (Obj N × List (Row K)) :=
  (cascadeStreams limit fuel unstructured o arg kwGroup).bind fun r =>
    (if many2many = true then manyToMany o.fdir active r.2 nbs else manyToOne o.fdir active).bind
      fun links => (finishRows r.2 links).map fun rows => (r.1, rows)

end Field

/-- The parts of the flow-direction object the builder reads: `_fdir`, centres, elevations and areas
(stream_util.py:1395-1397). -/
structure Fa (N : ℕ) where
  fdir : Fin N → ℤ
  xc : Fin N → ℝ
  yc : Fin N → ℝ
  dem : Fin N → Option ℝ
  area : Fin N → ℝ

/-- `PygsflowCascades` (stream_util.py:1532-1583); `rows` stands for the four arrays of equal length
`hru_up_id`, `hru_down_id`, `hru_pct_up`, `hru_strmseg_down_id`. -/
structure Builder (N : ℕ) where
  ncascade : ℕ
  rows : List (Row ℝ)
  flag : ℤ
  nsegments : ℕ
  nreaches : ℕ
  slope : Fin N → Option ℝ
  aspect : Fin N → ℝ
  area : Fin N → ℝ

/-- `np.count_nonzero` (stream_util.py:1388) -/
def countNonzero (sa : Fin N → ℤ) : ℕ := ((List.finRange N).filter (fun n => sa n ≠ 0)).length

/-- `get_pygsflow_builder_object` (stream_util.py:1344-1402).  The rows come from `get_cascades` called with
the stored array, so that its keyword does not matter. -/
noncomputable def builder (limit fuel : ℕ) (unstructured : Bool) (nbs : Fin N → List (Fin N × Option ℝ))
    (fa : Fa N) (o : Obj N) (arg : Option (Fin N → ℤ)) (active : Fin N → Bool) (group many2many : Bool) :
    Res (Obj N × Builder N) :=
  (connect limit fuel unstructured o arg group).bind fun r =>
    (cascades limit fuel unstructured nbs r.1 r.1.streamArray active many2many false).bind fun c =>
      (match arg with | some sa => Res.ok sa | none => c.1.stream).bind fun sa =>
        (Geom.slope fa.fdir fa.xc fa.yc fa.dem).bind fun s =>
          (Geom.aspect fa.fdir fa.xc fa.yc).map fun a =>
            (c.1, ⟨c.2.length, c.2, if many2many = true then 0 else 1, r.2.length, countNonzero sa,
              s, a, fa.area⟩)

end Dany.Prms
