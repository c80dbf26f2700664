import Verif.Flood.Model
import Verif.Nan.Model

/-!
# Model of the calls that ask one FloPy grid object for its neighbours

The tables of neighbours are FloPy's: `Grid.neighbors(method=..., reset=...)` computes a table only when
the grid holds none or when `reset=True`, stores it in the grid, and otherwise returns the stored one
*whatever* `method` is (external code, taken from FloPy's documentation of `reset`; the argument
`reset=True` in dem_conditioning.py:84 relies on it).  The default `method` is "rook".
-/

namespace Dany.Cache

variable {N : ℕ} {K : Type*} [Field K] [LinearOrder K]

/-- neighbour tables -/
abbrev Table (N : ℕ) := Fin N → List ℕ

/-- FloPy's two ways of finding neighbours: cells sharing a side, cells sharing a vertex -/
inductive Method | rook | queen
  deriving DecidableEq

/-- A FloPy grid: its cells' vertices and the table FloPy would compute for each method. -/
structure Grid (N : ℕ) where
  iverts : Fin N → List ℕ
  tab : Method → Table N

/-- `modelgrid.neighbors(method=m, reset=reset)` (FloPy; called at dem_conditioning.py:84, 186, 286,
flow_directions.py:37, stream_util.py:36): the table returned and the grid's cache afterwards. -/
def query (g : Grid N) (m : Method) (reset : Bool) (cache : Option (Table N)) :
    Table N × Option (Table N) :=
  if reset then (g.tab m, some (g.tab m))
  else
    match cache with
    | none => (g.tab m, some (g.tab m))
    | some t => (t, some t)

/-- The calls of dany that ask the grid for neighbours. -/
inductive Call (N : ℕ) (K : Type*)
  /-- `fill_sinks(modelgrid, dem, stream_mask=, method=)` -/
  | fill (dem : Fin N → K) (mask : Option (Fin N → Bool)) (method : String)
  /-- `fill_nan_values(modelgrid, dem, method=)` -/
  | fillNan (dem : Fin N → Option K) (method : String)
  /-- `FlowDirections(modelgrid, dem)` -/
  | flowDirections
  /-- `Sfr6(modelgrid, ...)`, `Sfr2005(modelgrid, ...)`, `PrmsStreams(modelgrid, ...)`: all run
  `StreamBase.__init__` -/
  | stream

/-- What such a call gives the caller.  For the two classes: the neighbour table kept in the object. -/
inductive Answer (N : ℕ) (K : Type*)
  | filled (r : Res (Fin N → K))
  | nanFilled (r : Res (Fin N → Option K))
  | flowTable (t : Table N)
  | streamTable (t : Table N)

/-- `fill_sinks` (dem_conditioning.py:39-59) on a grid object: `_identify_edge_nodes` first, then either
`_priority_flood`, which asks for queen neighbours (dem_conditioning.py:186), or
`_flood_and_drain_fill`, which asks for them with `reset=True` (dem_conditioning.py:84). -/
def fillCall (fuel : ℕ) (raise : K → K) (flood : K) (g : Grid N) (dem : Fin N → K)
    (mask : Option (Fin N → Bool)) (method : String) (cache : Option (Table N)) :
    Res (Fin N → K) × Option (Table N) :=
  match Edge.edgeNodes g.iverts with
  | .ok edge =>
    let method' :=
      if mask.isSome then
        if method.toLower = "priority" ∨ method.toLower = "complete" then method else "priority"
      else method
    if method'.toLower = "priority" ∨ method'.toLower = "complete" then
      let q := query g .queen false cache
      (Flood.fillFrom fuel raise flood q.1 edge dem mask method, q.2)
    else
      let q := query g .queen true cache
      (Flood.fillFrom fuel raise flood q.1 edge dem mask method, q.2)
  | .err e => (.err e, cache)
  | .hang => (.hang, cache)

/-- One call: its answer and the cache it leaves in the grid.
`fill_nan_values` asks at dem_conditioning.py:286, before looking at `method`; `FlowDirections` copies
the table (flow_directions.py:37); `StreamBase` asks without a method (stream_util.py:36). -/
def step (fuel : ℕ) (raise : K → K) (flood : K) (g : Grid N) :
    Call N K → Option (Table N) → Answer N K × Option (Table N)
  | .fill dem mask method, cache =>
    let r := fillCall fuel raise flood g dem mask method cache
    (.filled r.1, r.2)
  | .fillNan dem method, cache =>
    let q := query g .queen false cache
    (.nanFilled (Nan.fillNan fuel method q.1 dem), q.2)
  | .flowDirections, cache =>
    let q := query g .queen false cache
    (.flowTable q.1, q.2)
  | .stream, cache =>
    let q := query g .rook false cache
    (.streamTable q.1, q.2)

/-- The calls of a session on one grid object, in order. -/
def session (fuel : ℕ) (raise : K → K) (flood : K) (g : Grid N) :
    List (Call N K) → Option (Table N) → List (Answer N K) × Option (Table N)
  | [], cache => ([], cache)
  | c :: cs, cache =>
    let r := step fuel raise flood g c cache
    let s := session fuel raise flood g cs r.2
    (r.1 :: s.1, s.2)

end Dany.Cache
