import Verif.Torn.Interrupt

/-!
# Several objects on one grid: the top of the grid (`dany/stream_util.py`)

The constructors of `Sfr6`, `Sfr2005` and `PrmsStreams` overwrite the top of the grid they are given.  This is a model of a
session with one grid, any number of `FlowDirections` objects and any number of stream objects.  The methods are those of
`Torn`; elevations are without missing values here.
-/

namespace Dany.Top

open Reach Seg Fail Prog Torn

variable {N : ℕ} {K : Type*}

/-- What a stream object reads of a `FlowDirections` object: `dem`, `_fdir` (`None` before `flow_directions`), and `slope`,
which is computed from them on access (flow_directions.py:90-96, 689-712) -/
structure Fo (N : ℕ) (K : Type*) where
  dem : Fin N → K
  fdir : Option (Fin N → ℤ)
  slope : Fin N → K

/-- the three classes -/
inductive Kind where
  | sfr6
  | sfr2005
  | prms
  deriving DecidableEq

/-- A stream object (stream_util.py:22-36, 471-479, 688-695, 1089-1094): directions and slopes taken at construction, and
the attributes its methods assign -/
structure So (N : ℕ) (K : Type*) where
  kind : Kind
  fdir : Option (Fin N → ℤ)
  slope : Fin N → K
  sm : Sm N

/-- The session: the flow objects, the `_top` of the grid, the stream objects in the order in which they were made -/
structure Ws (N : ℕ) (K : Type*) where
  flows : ℕ → Fo N K
  top : Fin N → K
  objs : List (So N K)

/-- What no call changes: geometry of the grid, and the fuel and recursion limit of the model -/
structure Geo (N : ℕ) (K : Type*) where
  unstructured : Bool
  limit : ℕ
  fuel : ℕ
  ncol : ℕ
  xc : Fin N → K
  yc : Fin N → K
  side : Fin N → K
  delr : ℕ → K
  delc : ℕ → K
  sqrt : K → K
  nbs : Fin N → List (Fin N × Option K)

/-- the grid as the methods of an object with these slopes see it: the top is read from the grid at each call
(stream_util.py:575, 762, 1035) -/
def Geo.world (g : Geo N K) (top slope : Fin N → K) : World N K :=
  ⟨g.sqrt, ⟨g.xc, g.yc, g.side, slope, top⟩, ⟨g.ncol, g.xc, g.yc, fun n => some (top n), g.delr, g.delc, g.sqrt⟩, g.nbs⟩

/-- the environment of a method -/
def Geo.env (g : Geo N K) (f : Fin N → ℤ) : Env N := ⟨f, g.unstructured, g.limit, g.fuel⟩

/-- What happens in a session -/
inductive Ev (N : ℕ) (K : Type*) where
  /-- flow object `i` is made or its calls change its attributes -/
  | flow (i : ℕ) (fo : Fo N K)
  /-- a stream object is constructed from flow object `i` -/
  | make (kind : Kind) (i : ℕ)
  /-- a method of stream object `j` is called -/
  | call (j : ℕ) (c : Call N)

/-- the stream object a constructor makes (stream_util.py:471-479, 688-695, 1089-1094): `Sfr6` reads the slope, which
raises if the directions have not been calculated -/
def newObj (kind : Kind) (fo : Fo N K) : Option (So N K) :=
  if kind = .sfr6 ∧ fo.fdir = none then none else some ⟨kind, fo.fdir, fo.slope, Sm.new⟩

/-- a method call on an object; without directions only `set_stream_array` has an effect (simplified: connectivity of an
array without any stream cell does not look at the directions and would be stored) -/
def So.call [Field K] [LinearOrder K] (g : Geo N K) (top : Fin N → K) (c : Call N) (o : So N K) : So N K :=
  match o.fdir, c with
  | some f, c => { o with sm := (c.prog (g.env f) (g.world top o.slope)).after o.sm }
  | none, .store r => { o with sm := (Torn.store r).after o.sm }
  | none, _ => o

/-- one event; `modelgrid._top = faobj.dem.copy()` (stream_util.py:474, 691, 1092) is the first statement of the
constructors, executed also if the constructor raises afterwards -/
def step [Field K] [LinearOrder K] (g : Geo N K) (w : Ws N K) : Ev N K → Ws N K
  | .flow i fo => { w with flows := Function.update w.flows i fo }
  | .make kind i => { w with top := (w.flows i).dem, objs := w.objs ++ (newObj kind (w.flows i)).toList }
  | .call j c => { w with objs := w.objs.modify j (So.call g w.top c) }

/-- a session -/
def run [Field K] [LinearOrder K] (g : Geo N K) (w : Ws N K) (h : List (Ev N K)) : Ws N K := h.foldl (step g) w

/-- `packagedata(stream_array)` of stream object `o` with this top (stream_util.py:538-641) -/
def So.package [Field K] [LinearOrder K] (g : Geo N K) (top : Fin N → K) (o : So N K) (arg : Option (Fin N → ℤ)) :
    Res (List (PRec N K)) :=
  match o.fdir with
  | some f => (packageData (g.env f) g.sqrt (g.world top o.slope).grid arg).res o.sm
  | none => .err .typeError

/-- `reach_data(stream_array, group_segments)` of stream object `o` with this top (stream_util.py:722-842) -/
def So.reach [Field K] [LinearOrder K] (g : Geo N K) (top : Fin N → K) (o : So N K) (arg : Option (Fin N → ℤ)) (grp : Bool) :
    Res (List (Rdata.Row K)) :=
  match o.fdir with
  | some f => (reachData (g.env f) (g.world top o.slope).sgrid arg grp).res o.sm
  | none => .err .typeError

end Dany.Top
