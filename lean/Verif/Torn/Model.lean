import Verif.Fail.Prog
import Verif.Prms.Model
import Verif.Rdata.Model

/-!
# Stream objects whose calls can fail or be interrupted (`dany/stream_util.py`)

The calculations are those of `Reach`, `Seg`, `Vec`, `Irun`, `Rdata` and `Casc`; here the methods of `Sfr6`, `Sfr2005`
and `PrmsStreams` are put together assignment by assignment.
-/

namespace Dany.Torn

open Reach Seg Fail Prog

variable {N : ℕ} {K V : Type*}

/-- The attributes a stream object assigns to (stream_util.py:27-28, 694-695): `_stream_array`, `_graph`, `_seg_graph`,
`_node_seg_rch`.  `_graph` holds reach numbers or cells, so its values are optional integers. -/
@[ext]
structure Sm (N : ℕ) where
  streamArray : Option (Fin N → ℤ)
  graph : Option (Dict ℤ (Option ℤ))
  segGraph : Option (Dict ℤ ℤ)
  nsr : Option (List (Fin N × ℤ × ℤ))

/-- a new object (stream_util.py:22-36, 694-695) -/
def Sm.new : Sm N := ⟨none, none, none, none⟩

/-- What the calls do not change: flow directions (read once, at construction), grid type, and the fuel and recursion
limit of the model -/
structure Env (N : ℕ) where
  fdir : Fin N → ℤ
  unstructured : Bool
  limit : ℕ
  fuel : ℕ

/-- `None` where an attribute is needed -/
def need {α : Type*} : Option α → Res α
  | some a => .ok a
  | none => .err .attributeError

/-- the array given or stored (stream_util.py:125-132, 194-201, 744-751, 860-867, 903-910) -/
def source (arg : Option (Fin N → ℤ)) : Prog (Sm N) (Fin N → ℤ) := read fun o =>
  match arg with
  | some sa => .ok sa
  | none => match o.streamArray with
    | some sa => .ok sa
    | none => .err .assertionError

/-- `_mf6_stream_connectivity` (stream_util.py:109-171): the calculation works on a copy; two assignments at the end -/
def conn6 (E : Env N) (arg : Option (Fin N → ℤ)) : Prog (Sm N) (Dict ℤ ℤ) :=
  (source arg).bind fun sa => (read fun _ => mf6 E.limit E.fdir sa).bind fun r =>
  (write fun o => { o with streamArray := some r.1 }).seq <|
  (write fun o => { o with graph := some (someVals r.2) }).seq <| pure r.2

/-- `_mf2005_stream_connectivity` (stream_util.py:173-312): four assignments at the end -/
def conn5 (E : Env N) (arg : Option (Fin N → ℤ)) (group : Bool) : Prog (Sm N) (Dict ℤ ℤ) :=
  (source arg).bind fun sa => (read fun _ => mf2005 E.limit E.fuel E.unstructured E.fdir sa group).bind fun out : Out N =>
  (write fun o => { o with streamArray := some out.sa }).seq <|
  (write fun o => { o with graph := some (Vec.asGraph out.graph) }).seq <|
  (write fun o => { o with segGraph := some out.sg }).seq <|
  (write fun o => { o with nsr := some out.nsr }).seq <| pure out.sg

/-- `set_stream_array` (stream_util.py:57-75) and `delineate_streams` (stream_util.py:77-107): the array is checked or
computed first (`r`), then stored -/
def store (r : Res (Fin N → ℤ)) : Prog (Sm N) Unit :=
  (read fun _ => r).bind fun sa => write fun o => { o with streamArray := some sa }

/-- `create_stream_vectors` (stream_util.py:314-379) on an integer array; the order of the attributes read is that of
the code: the graph returned, then `_node_seg_rch` -/
def vectors (E : Env N) (vfuel : ℕ) (xy : Fin N → V) (arg : Option (Fin N → ℤ)) (group : Bool) :
    Prog (Sm N) (Dict ℤ (List V)) :=
  (conn5 E arg group).bind fun sg => read fun o => (need o.nsr).bind fun nsr => Vec.vectorsOf vfuel sg nsr xy

/-! ### `Sfr6` -/

/-- the graph given, stored or computed (stream_util.py:511-522, 559-572) -/
def graphOf (E : Env N) (given : Option (Dict ℤ (Option ℤ))) : Prog (Sm N) (Dict ℤ (Option ℤ)) :=
  match given with
  | some g => pure g
  | none => (read fun o => .ok o.graph).bind fun g =>
    match g with
    | some g => pure g
    | none => (conn6 E none).bind fun g => pure (someVals g)

/-- `connectiondata(graph)` (stream_util.py:500-536) -/
def connData (E : Env N) (given : Option (Dict ℤ (Option ℤ))) : Prog (Sm N) (List (ℤ × List ℤ)) :=
  (graphOf E given).bind fun g => read fun _ => connectiondata g

/-- `packagedata(stream_array)` (stream_util.py:538-641) -/
def packageData [Field K] [DecidableEq K] (E : Env N) (sqrt : K → K) (G : Grid N K) :
    Option (Fin N → ℤ) → Prog (Sm N) (List (PRec N K))
  | some sa => (conn6 E (some sa)).bind fun g => read fun _ => packageRows sqrt G sa (someVals g)
  | none => (graphOf E none).bind fun g =>
      (source none).bind fun sa => read fun _ => packageRows sqrt G sa g

/-! ### `Sfr2005` -/

/-- `if self._seg_graph is None: self._mf2005_stream_connectivity(…)` (stream_util.py:753-757, 869-873) -/
def ensure (E : Env N) (arg : Option (Fin N → ℤ)) (group : Bool) : Prog (Sm N) Unit :=
  (source arg).bind fun sa => (read fun o => .ok o.segGraph).bind fun sg =>
    match sg with
    | some _ => pure ()
    | none => (conn5 E (some sa) group).bind fun _ => pure ()

/-- `reach_data` (stream_util.py:722-842) -/
def reachData [Field K] [DecidableEq K] (E : Env N) (G : Rdata.SGrid N K) (arg : Option (Fin N → ℤ)) (group : Bool) :
    Prog (Sm N) (List (Rdata.Row K)) :=
  (ensure E arg group).seq <| read fun o => (need o.segGraph).bind fun sg => (need o.nsr).bind fun nsr =>
    Rdata.reachTable G sg nsr

/-- `segment_data` (stream_util.py:844-885) -/
def segmentData (K : Type*) [Zero K] (E : Env N) (arg : Option (Fin N → ℤ)) (group : Bool) :
    Prog (Sm N) (List (Rdata.SRow K)) :=
  (ensure E arg group).seq <| read fun o => (need o.segGraph).map fun sg => Rdata.segmentTable K sg

/-- `irunbnd(stream_array, segment_graph)` (stream_util.py:887-952) -/
def irun (E : Env N) (cfuel : ℕ) (arg : Option (Fin N → ℤ)) (given : Option (Dict ℤ ℤ)) (group : Bool) :
    Prog (Sm N) (Fin N → ℤ) :=
  (source arg).bind fun sa => (read fun o => .ok o.segGraph).bind fun sg =>
    (if given.isNone ∧ sg.isNone then (conn5 E (some sa) group).bind fun _ => source none else pure sa).bind fun sa =>
      read fun _ => Irun.irunbnd cfuel E.fdir sa

/-! ### `PrmsStreams` -/

/-- `get_stream_connectivity` of `PrmsStreams` (stream_util.py:1096-1122) -/
def connP (E : Env N) (arg : Option (Fin N → ℤ)) (group : Bool) : Prog (Sm N) (Dict ℤ ℤ) :=
  if group = true then conn5 E arg true else conn6 E arg

/-- `get_cascades` (stream_util.py:1124-1200) -/
def cascades [Field K] [LinearOrder K] (E : Env N) (nbs : Fin N → List (Fin N × Option K)) (arg : Option (Fin N → ℤ))
    (active : Fin N → Bool) (many2many kwGroup : Bool) : Prog (Sm N) (List (Casc.Row K)) :=
  (source arg).bind fun sa => (read fun o => .ok o.graph).bind fun g =>
    (match g with
      | some _ => pure sa
      | none => (connP E (some sa) kwGroup).bind fun _ => source none).bind fun sa =>
        read fun _ => (if many2many = true then Casc.manyToMany E.fdir active sa nbs else Casc.manyToOne E.fdir active).bind
          fun links => Casc.finishRows sa links

/-- `get_pygsflow_builder_object` of `PrmsStreams` (stream_util.py:1344-1402), the part that looks at the stream network:
cascades, number of segments and of reaches -/
def prmsBuilder [Field K] [LinearOrder K] (E : Env N) (nbs : Fin N → List (Fin N × Option K)) (arg : Option (Fin N → ℤ))
    (active : Fin N → Bool) (group many2many : Bool) : Prog (Sm N) (List (Casc.Row K) × ℕ × ℕ) :=
  (connP E arg group).bind fun sg => (read fun o => .ok o.streamArray).bind fun stored =>
    (cascades E nbs stored active many2many false).bind fun rows =>
      (source arg).bind fun sa => pure (rows, sg.length, Prms.countNonzero sa)

/-! ### Calls and histories -/

/-- A call of any of the three classes; what it returns is dropped -/
inductive Call (N : ℕ) where
  | store (r : Res (Fin N → ℤ))
  | conn6 (arg : Option (Fin N → ℤ))
  | conn5 (arg : Option (Fin N → ℤ)) (group : Bool)
  | vectors (vfuel : ℕ) (arg : Option (Fin N → ℤ)) (group : Bool)
  | connData (given : Option (Dict ℤ (Option ℤ)))
  | packageData (arg : Option (Fin N → ℤ))
  | reachData (arg : Option (Fin N → ℤ)) (group : Bool)
  | segmentData (arg : Option (Fin N → ℤ)) (group : Bool)
  | irun (cfuel : ℕ) (arg : Option (Fin N → ℤ)) (given : Option (Dict ℤ ℤ)) (group : Bool)
  | cascades (arg : Option (Fin N → ℤ)) (active : Fin N → Bool) (many2many kwGroup : Bool)
  | prmsBuilder (arg : Option (Fin N → ℤ)) (active : Fin N → Bool) (group many2many : Bool)

/-- What the grid gives to the calls -/
structure World (N : ℕ) (K : Type*) where
  sqrt : K → K
  grid : Grid N K
  sgrid : Rdata.SGrid N K
  nbs : Fin N → List (Fin N × Option K)

/-- the call as a program -/
def Call.prog [Field K] [LinearOrder K] (E : Env N) (W : World N K) : Call N → Prog (Sm N) Unit
  | .store r => Torn.store r
  | .conn6 arg => (Torn.conn6 E arg).bind fun _ => pure ()
  | .conn5 arg g => (Torn.conn5 E arg g).bind fun _ => pure ()
  | .vectors v arg g => (Torn.vectors E v (fun n => (W.grid.xc n, W.grid.yc n)) arg g).bind fun _ => pure ()
  | .connData g => (Torn.connData E g).bind fun _ => pure ()
  | .packageData arg => (Torn.packageData E W.sqrt W.grid arg).bind fun _ => pure ()
  | .reachData arg g => (Torn.reachData E W.sgrid arg g).bind fun _ => pure ()
  | .segmentData arg g => (Torn.segmentData K E arg g).bind fun _ => pure ()
  | .irun c arg sg g => (Torn.irun E c arg sg g).bind fun _ => pure ()
  | .cascades arg a m k => (Torn.cascades E W.nbs arg a m k).bind fun _ => pure ()
  | .prmsBuilder arg a g m => (Torn.prmsBuilder E W.nbs arg a g m).bind fun _ => pure ()

/-- A history of calls that returned or raised -/
def history [Field K] [LinearOrder K] (E : Env N) (W : World N K) (o : Sm N) (h : List (Call N)) : Sm N :=
  h.foldl (fun o c => (c.prog E W).after o) o

/-- A history of calls that returned, raised (`none`) or were interrupted after some number of assignments -/
def cutHistory [Field K] [LinearOrder K] (E : Env N) (W : World N K) (o : Sm N) (h : List (Call N × Option ℕ)) : Sm N :=
  h.foldl (fun o c => match c.2 with
    | none => (c.1.prog E W).after o
    | some k => (c.1.prog E W).cut o k) o

end Dany.Torn
