# Formal model of jlarsen-usgs/dany in Lean 4

Code: `/repo/dany/{dem_conditioning,flow_directions,stream_util}.py`.
Model, specification and theorems: `/verif/lean/Verif/`.

## 1. How the code is modelled

* **Arrays.** A flat array of `N` cells is a function `Fin N → V`; in-place assignment is
  `Function.update`.  Every multi-dimensional array is represented by its C-order ravel; `reshape` is
  modelled only where it can fail (C60).  Indices that the code computes (neighbour numbers, flow
  directions, `-2`) are `Nat`/`Int` and are converted through `pyIndex`, which reproduces numpy's
  rule: `0 ≤ i < N` is itself, `-N ≤ i < 0` wraps to `N + i`, anything else is an `IndexError`.
* **Exceptions and loops.** `Res α = ok a | err e | hang`.  Python exceptions are `err`.  A `while`
  loop is a recursion on fuel that yields `hang` when the fuel is used up.  "Terminates" is a theorem
  that some fuel (with an explicit bound where there is one) gives a value; "never terminates" is a
  theorem that *every* fuel gives `hang`.  Results do not depend on the fuel once it is enough.
* **Numbers.** Elevations in the flooding code range over an arbitrary linear order `V`, and
  `x + eps` is an arbitrary function `raise : V → V` with the hypotheses a theorem needs
  (inflationary `x ≤ raise x`, monotone, strict `x < raise x`).  IEEE doubles without NaN with
  round-to-nearest `x + eps`, `eps ≥ 0`, satisfy the first two, exact rationals with `eps > 0` all
  three, so no exact-arithmetic assumption hides in those theorems.  Quantities needing division or
  sums (means, areas, geometry) use an ordered field or the reals: exact arithmetic.  Floating
  point rounding is modelled for sink filling, slopes and accumulation (`Float`): in `Dirs` every operation
  is followed by a function `rnd`, in `Acc` the addition is any operation with a right unit.  NaN is `none : Option V`.  `sqrt`, `arctan2` are either a
  parameter (distance) or Mathlib's real functions.
* **Dictionaries, sets.** Insertion-ordered association lists; Python iteration order is preserved
  where the code's result depends on it.
* **External code.** `modelgrid.neighbors` (FloPy), `modelgrid.intersect`, cell centres and vertices
  are parameters of the model (C163 only: `neighbors` computes its table when the grid holds none or
  `reset=True`, and else returns the one it holds; default method rook).  `heapq` is modelled by its contract, a bag whose `pop` removes the
  least `(elevation, node)` tuple; `Nodata/Heapq` models its array heap line by line and C138 proves the
  contract from it (no NaN), while C139–C142 use the array heap itself.  numpy primitives (`where`, `nanmin`, `argmax`, ...) are modelled by
  their documented behaviour.  Printing is dropped.

## 2. Trusted base

Lean 4.33's kernel; the axioms `propext`, `Classical.choice`, `Quot.sound` (nothing else; see
`vcheck`); Mathlib definitions used in statements (`Finset.sum`, `Function.iterate`, `Real`, ...); the
reading of Python/numpy semantics described above; the fidelity of the hand translation, which is
documented by a `file:lines` citation on every definition.

### Modelled code

`dem_conditioning.py`: all functions.  `flow_directions.py`: `__init__` (outlet check, areas, padding of
the DEM and of the neighbour lists), `flow_directions`, `_fill_irregular_neighbor_array`,
`_calculate_slopes`, `_calculate_flowcell`, `_resolve_flats`, `_reverse_flow_directions`, `get_nidp`,
`flow_accumulation`, `get_watershed_boundary`, `get_subbasins`, `_get_shared_vertex`,
`_calculate_hru_len`, `slope`, `aspect`, `vectors`.  `stream_util.py`: `StreamBase` (all methods),
`Sfr6` (`connectiondata`, `packagedata`), `Sfr2005` (`reach_data`, `segment_data`, `irunbnd`,
`get_pygsflow_builder_object`), `PrmsStreams` (all methods), `PygsflowCascades`,
`PygsflowCompatBase` (`write`, `read`), `Topology`.

### Not modelled

Printing; `GeoSpatialUtil`/`GeoSpatialCollection` (points are given as the cell they fall into);
FloPy's computation of neighbours, cell centres, vertices, `intersect`; matplotlib/shapefiles; the inside of `pickle`;
floating point rounding where an ordered field or the reals are used; the contents of `/repo/development`
and `/repo/examples` notebooks.

### Simplifications that matter for reading a theorem

* *Flooding*: `x + eps` is a function `raise`; `1e10` is a parameter `big`.
* *Stack depth*: CPython's recursion limit is a parameter of `Topology.sort` and everything that calls it.
  The outcome is monotone in the limit: a smaller one can only turn a value into `RecursionError`
  (`C46_limit`, `C38_limit`, `C56_any_limit`, `C59_limit`).  Theorems about a call that returned carry no
  condition on it; existence theorems ask that no flow path (of cells, or of segments) is longer than it.
* *Flow directions* (`Dirs`): `sqrt` is an arbitrary function of the squared distance, rounding an arbitrary
  function; NaN is `none`,
  `1e10` a parameter; terminal cells are numbers in `0..N-1`; for unstructured grids FloPy's `ncpl` is
  assumed to be an integer equal to the number of cells.  The sets the code keeps per cell are lists in
  insertion order: CPython's iteration order of a set of small integers is only used through `list(s)[0]`
  of a one-element set and through loops whose order the theorems do not depend on.
* *Legal arrays* (C38, C50, ...): flow direction arrays whose entries are cell numbers; the hypothesis is
  dropped where the behaviour of `-2` is itself the subject (C35).
* *Geometry*: real numbers instead of doubles (a tiny negative aspect could round to 360.0); vertex
  coordinates are a total function of the vertex number.
* *Reach data*: FloPy's `get_lrc`/`get_node` are `n / ncol, n % ncol`; the empty record arrays FloPy
  returns hold `outreach = 0`; float32 rounding of recarray columns is ignored except in C150, C214 and C216.  `packagedata` squares coordinate differences with `** 2` on NumPy scalars;
  C215 takes this to be the correctly rounded product.
* *Sharing* (`Heap`): the calculations are arbitrary functions of the contents they read; arrays are
  contiguous (`ravel` and `reshape` are views) and all have `N` entries.
* *Side length* of an outlet reach in `packagedata` is an input of C54; C131 computes it from the polygon.

### Properties that are false of the code

For these the full statement is kept, a `_refuted` theorem proves its negation (for all inputs of a
described class where possible, and on a concrete run), and `_partial` theorems prove what does hold:
C14, C20, C21, C23, C35, C37, C39, C48, C55, C60, C61, C63, C64, C66, C69, C72, C74, C75, C79, C80, C82, C85, C87, C89, C92, C95, C96, C98, C100, C102, C104, C105, C107, C108, C109, C111, C119, C132, C142, C144, C150, C154, C155, C158, C163, C165, C166, C167, C169, C170, C185, C196, C197, C212.
They are listed as `partial` in the manifest.

## 3. Properties: what is modelled and how it is proved

Theorem names are in `MANIFEST.json`.

| id | model | proof |
|----|-------|-------|
| C01 | `_priority_flood`, `_flood_and_drain_fill`, `fill_sinks` | loop invariant (cells only rise / drain value ≥ ground) |
| C02 | same | invariant: closed cells are never rewritten; drain skips cells at ground level |
| C03 | same | invariant: each closed cell has an already processed, lower neighbour with a descending path |
| C04 | same | invariant: closed ⊆ reachable from seeds, unclosed unchanged |
| C05 | same | measure `2·unclosed + queue`; processed cells = reachable cells |
| C06 | same, spec `PathCost` | Dijkstra-style frontier argument, generalised to C09 |
| C07, C08 | same | corollaries of C06 |
| C09 | same | ghost level = last heap pop, pit values ≤ raise^k level |
| C10 | `_inner_flood_and_drain_fill` | lower-bound invariant + fixpoint inequality |
| C11 | same | strictly decreasing rank in a finite value set |
| C12 | both | both equal least path cost |
| C13 | stream branch of `_priority_flood` | invariant as C03, seeds processed once |
| C14 | same | refuted by a concrete run; partial: what the pit branch guarantees |
| C15 | `_identify_edge_nodes` | exact membership; set-of-sides characterisation |
| C16 | same + structured vertex lists | arithmetic on sides |
| C17 | `fill_sinks` | case analysis |
| C18–C20 | `fill_nan_values` | stack invariant; exact termination criterion; divergence theorem |
| C21–C26 | `flow_directions`, `_fill_irregular_neighbor_array`, `_calculate_slopes`, `_calculate_flowcell`, `_resolve_flats` | invariant of the cell loop; BFS and trace loops by measure; C23 refuted by a run |
| C27 | composition | C03 + C25 |
| C28 | `__init__` | counting |
| C29 | object state machine | padding idempotent, state projection |
| C30–C34 | `get_nidp`, `flow_accumulation` | walker invariant (released cells), well-founded induction upstream |
| C35 | same | refuted by a run; exact statement: -2 acts as cell N-2 |
| C36, C37 | `_reverse_flow_directions`, `get_watershed_boundary` | BFS invariant; C37 refuted by a two-call history |
| C38, C39 | `get_subbasins`, `Topology` | sort theorem + BFS with barriers; C39 refuted by a run |
| C40 | `_shoelace_area` | cyclic-sum algebra |
| C41 | `aspect`, `vectors` | `Complex.arg` |
| C42 | `slope` | case analysis |
| C43 | `_calculate_hru_len` | real arithmetic |
| C44, C45 | `delineate_streams`, `set_stream_array` | pointwise; with C34 |
| C46–C48 | `Topology` | recursion invariant; C48 refuted for every recursion limit |
| C49–C51 | `_mf6_stream_connectivity` | sort theorems |
| C52, C53 | `connectiondata` | fold invariant |
| C54, C55 | `packagedata` | from C49; C55 refuted for all binary arrays with ≥ 2 stream cells |
| C56–C60 | `_mf2005_stream_connectivity` | segment walk invariant; C60 refuted |
| C61, C62 | `_build_many_to_one_cascades` | multiplicity count; C61 refuted |
| C63, C64 | `_build_many_to_many_cascades` | field algebra; C64 refuted |
| C65, C66 | `irunbnd` | DFS invariant; C66 refuted |
| C67 | `create_stream_vectors` | worklist invariant |
| C68 | `threshold_from_control_points` | upstream chain; divergence on a 2-cycle |
| C69, C70 | `get_pygsflow_builder_object` | case analysis |
| C71–C73 | `reach_data`, `segment_data` | list folds; C72 refuted |
| C74, C75 | stream object state machine | refuted by histories; partial: first call |
| C76 | `get_cascades` | pointwise |
| C77, C104 | `write`, `read` as effects on a file system (`Store`); pickle is a parameter with stated laws | induction over the calls; prefix of the effects; C104 refuted |
| C78–C81 | `reach_data`, builder | as C71 |
| C82, C83 | `fill_sinks` on integer arrays (`Ints`: truncation on store) | C06/C09 with a truncating raise; C82 refuted for all non-negative DEMs and eps < 1 |
| C84, C85 | `fill_nan_values` | stack invariant (the stack holds all cells still NaN, in descending order); C85 refuted |
| C86, C87 | `nash_sutcliffe_efficiency` of `examples/nse_util.py` | real sums; C87 refuted |
| C88–C90 | `PrmsStreams.get_pygsflow_builder_object`, `get_cascades` with its keyword | composition of C50/C58 (numbers), C41/C42 (aspect, slope); C89 refuted |
| C91–C94 | aliasing: heap of arrays, objects holding references, client programs (`Heap`) | simulation of the reference machine by a by-value machine; C92 refuted for each shared array |
| C95, C96 | connectivity with the array type as a parameter (`Dtype`) | simulation by the integer functions of `Reach` and `Seg`; Boolean and NaN arrays refuted |
| C97 | `flow_directions` (`Dirs`) | invariant of the loop over the cells: no candidate is ever dropped, and the search over ties always finds a cell with a single steepest neighbour (`Dirs/Drain`) |
| C98, C99 | the chain of `Flood`, `Dirs`, `Acc`, `Basin`, `Delin`, `Reach` (`Pipe`) | C98 refuted by a run; C99 from C03, C26, C97, C31–C33, C36, C44, C45, C49, C50 |
| C102, C106–C108 | `FlowDirections` as an object whose calls write attributes one after another (`Fail`): `flow_directions`, `flow_accumulation`, `_reverse_flow_directions`, `get_watershed_boundary`, `get_subbasins`, with exceptions and interrupts | programs as traces of states; invariants of every intermediate state; refinement of `Dirs.flowDirections`; C102, C107 and C108 refuted; C108 by a relation between two runs |
| C100, C101, C103, C109 | the methods of `Sfr6`, `Sfr2005` and `PrmsStreams` as programs that assign attributes (and table entries of the caller) one after another (`Torn`) | programs as traces of states; refinement of `Rdata` and `Reach`; idempotence of the row and column updates; C100 and C109 refuted |
| C105 | constructors of `Sfr6`, `Sfr2005`, `PrmsStreams` in a session with several flow and stream objects on one grid (`Top`); elevations without missing values | induction over the session (frame lemmas), rows of the tables; C105 refuted |
| C110–C112 | `fill_sinks` on `float32` and `float64` arrays (`Float`): IEEE 754 binary formats with subnormal numbers, round-to-nearest-even, both promotion rules of NumPy | rounding to nearest is monotone and exact on the format; spacing of the numbers decides whether an increment is lost; the invariants of C03, C06, C10, C11 on the ordered set of representable numbers; C111 refuted |
| C113–C116 | `_calculate_slopes`, `flow_directions`, `flow_accumulation`, `delineate_streams` in `float64` (`Float/Slopes`, `Float/Steep`, `Float/Chain`, `Float/Acc`); overflow not modelled | relative error of one rounding, of sums also among subnormal numbers; C25, C97, C99 for any rounding that loses no fall, and multiples of 2^-900 lose none; induction along the flow tree over the order of summation; product of the error factors for C116 |
| C117–C119 | `fill_sinks` (`Flood/Again`) | invariant of a run on a DEM that drains: every queued cell is at its own elevation and no cell has been raised, because a cell is always closed from a lower one first; fixpoints of C10 for 'drain'; C119 refuted |
| C120 | `fill_sinks` (`Flood/Shift`) | simulation: the run on the converted DEM is the converted run, step by step; for 'drain' by the least path costs of C10 |
| C121–C125 | `fill_sinks` (`Flood/Compare`) | comparison of spill elevations (C06), overfill (C09) and least path costs (C10) of two DEMs, numberings or increments; runs that show the bounds for 'priority' are not 0 |
| C126, C127, C129 | `flow_accumulation`, `get_watershed_boundary`, `get_subbasins` together (`Basin/Cross`) | C32, C36 and C38 compared; the upstream set of a point is the disjoint union of its subbasin and the upstream sets of the points directly above it |
| C128 | `flow_accumulation` with a counter (`Acc/Time`) | every iteration but one per walk releases a cell, and a cell is released once |
| C130 | `fill_sinks`, drain (`Flood/Sweeps`) | the level of a cell is derived along a path without repetition, so it is one of N(N+1) levels and every sweep lowers a cell to one of them |
| C131–C133 | `packagedata` (all columns, outlet length, `detuple`; `Reach/Pack`) | mean of the measured sides between their bounds; the table columns of C54; C132 refuted on a 2 × 1 cell, exact criterion proved |
| C134 | `flow_directions` (`Dirs/Scale`) | the method compares only elevations with elevations and slopes of a cell with one another; a similarity keeps the comparisons |
| C135 | `flow_directions` (`Dirs/Renumber`) | C22–C24 without ties determine every entry |
| C136 | `flow_accumulation` (`Acc/Linear`) | two runs of the loop that differ in the areas only, related by any relation that addition keeps |
| C137 | `fill_nan_values` in `float64` (`Float/Nan`) | any tree of rounded additions; error of a mean by induction on the tree; loop invariant with one factor per filled gap |
| C138 | `heapq` (`Nodata/Heapq`), `fill_sinks` over `Option V` (`Nodata`) | heap invariant of sift up/down; simulation of the bag model |
| C139–C142, C145 | `_priority_flood` with NaN comparisons and CPython's heap | loop invariant that needs no order of the queue; C142 refuted by a run |
| C143, C144 | `_flood_and_drain_fill` with NaN | simulation: nodata cells as ground at 1e10; then C10, C11, C03; C144 refuted |
| C146 | `slope` (`Float/Getters`) and `flow_directions` | C22; the distances and drops of the two methods are mirror images under odd rounding |
| C147 | `aspect` in `float64` (`Float/Getters`) | monotone rounding; nearest element below 360 |
| C148 | `get_cascades` on the slopes of `_calculate_slopes` (`Pipe/Packages`) | C62, C64 and C99; elevation falls along every link, so no circles |
| C149 | `packagedata`, `connectiondata`, `slope` on a falling network (`Pipe/Mf6`) | C42, C49, C50, C53, C54 put together |
| C150 | the `float32` columns of `reach_data` (`Rdata/Single`) | C71 and monotone rounding; refuted by a run with the default eps |
| C151 | `FlowDirections` and stream objects as programs that list their assignments (`Torn/Order`) | every method reads the missing attribute before its first assignment; induction over histories |
| C152 | the programs of `Fail` against `Acc` and `Basin` (`Fail/Session`) | refinement: each program returns and stores what the function says; invariant "stored table belongs to the stored directions" over histories |
| C153 | the programs of `Torn` against `Prms`, `Irun` and `Vec` (`Torn/Refine`) | refinement: outcome and final state of each program equal those of the function |
| C154 | `threshold_from_control_points`, `delineate_streams`, `flow_accumulation` (`Delin/Control`) | C68 and C34: a break can only be below a control point; refuted by a run |
| C155 | same | C68; refuted for every list of control points with the default threshold |
| C156 | `get_cascades(many_to_many=True)` in `float64` (`Float/Casc`) | relative error of sums and quotients (`Float/Props`), the 0.01 cut-off leaves an above-average candidate |
| C157 | `get_stream_connectivity` (`Seg/Count`) | double counting of feeding cells; C58, C56 |
| C158 | `_mf2005_stream_connectivity` twice (`Seg/Repeat`) | simulation: the tables depend on the stream cells only, the array on listed cells only; C56, C59 |
| C159 | `flow_directions` (`Dirs/Cost`) | the fuel bounds of C24 summed over the grid; a fixed number of rounds serves all cells |
| C160 | `fill_sinks`, `flow_directions`, `flow_accumulation` on structured grids (`Pipe/Rect`); FloPy's vertices, queen neighbours and centres as specified | walk towards cell 0 for connectedness; neighbours are a cell width apart; then C03, C09, C16, C99, C159, C33 |
| C161 | `fill_nan_values`, then the chain of C160, on structured grids (`Pipe/Gaps`) | every cell but the last has a higher-numbered neighbour, so C20 reduces to the last corner; C18, C19, C160 |
| C162 | C160 in `float64` (`Float/Rect`); FloPy's rounded centres as specified by `Measured` | computed centres stay half a cell width apart, so C113 applies; bounds on slopes by monotone rounding; C110, C159 |
| C163 | every call that asks the grid object for neighbours, over sessions (`Cache`); FloPy's stored table by its documented contract | induction over the session: the table held is a function of the first call and of whether a 'drain' fill occurred; C03, C06 for what survives |
| C164 | `PrmsStreams` and `Sfr2005` builders side by side (`Prms/Couple`) | both rest on the same `mf2005` result: C56, C58, C71, C73, C88 |
| C165 | `segment_data` of a new `Sfr2005` object (`Rdata/Outlet`) | C57 applied to the last row of each segment; an outlet flowing to itself is a confluence |
| C166 | `_mf6_stream_connectivity` and ungrouped `_mf2005_stream_connectivity` (`Seg/Agree`), both builders (`Prms/Ungrouped`) | both sorts simulate one depth-first walk on cells (`Topo/Dfs`) that differs only in the end at which self-flowing cells are put; equality by induction, difference by an order swap kept to the end |
| C167 | `get_cascades` and `reach_data` on new objects (`Prms/Ungrouped`) | C56, C59, C71, C89, C166; refuted on three cells |
| C168 | both GSFLOW builders after the chain of C160 (`Pipe/Gsflow`) | every stream cell that flows on lies below a headwater, so both builders find their rows; C88, C164, C99 |
| C169 | `irunbnd` and cascades of stray outlets (`Seg/Stray`, `Pipe/Gsflow`) | the renumbering loop keeps the first entry of each old number; C65, C58; refuted in general and on five cells |
| C170 | the rows of `get_cascades`, read by the specification `Routed` (`Pipe/Balance`) | well-founded recursion along the links (C148); the balance by exchanging sums; C63, C64 for the fractions; C61, C62 for repeated rows; C32 for the accumulation |
| C171 | `get_subbasins` on two lists of points in the same cells (`Basin/Order`) | `Topology.sort` depends on the dictionary only up to the order of its entries; the search for the next pour point reads the list by membership only |
| C172 | `get_subbasins` on nested lists of points (`Basin/Order`) | both results are labellings by the first pour point downstream (C38); the first point of the smaller list lies at or below that of the larger |
| C173 | two runs of `flow_directions` with different thresholds (`Dirs/Burn`, `Pipe/Burn`) | slopes under two thresholds agree or are both not negative; the search reads the candidates of cells that are not terminal only, so the runs agree step by step; C03 and C97 after filling |
| C37 (exact) | the search on a stale table (`Basin/Stale`) | the search computes the closure of the links of any table; the columns of the old table cut to the new counts, `-1` read as the last cell |
| C39 (exact) | `get_subbasins` with a pour point in cell 0 (Basin/Zero) | invariant of the sort: after a segment flowing to 0 the list never ends with -1, so `[:-1]` leaves -1 in the list; otherwise the sort is the same as without the point |
| C23, C97–C99, C160–C162, C168, C173 (ties) | ties that `_calculate_flowcell` settles without a search (`Soft`, `EasyTie`) | for at most three pairwise neighbouring candidates the connection test is always true, so no search starts there; a search that starts elsewhere never lists a cell that has a direction |
| C155 (exact) | threshold_from_control_points + delineate_streams | from C68_delineated: for every threshold the stream cells are exactly the main stems together with the cells whose accumulated area reaches it; iff criterion for 'only the stems' |
| C174 | two runs of `fill_sinks` (`Flood/Error`, `Flood/ErrorWitness`) | spill levels (C06), least surfaces (C10) and the bound C09 shift with the DEM |
| C175 | `get_subbasins` and `get_watershed_boundary` (`Basin/Single`) | C38 with one pour point and C36 |
| C176 | two runs of `flow_accumulation` (`Acc/Reroute`) | C32; the cells upstream of the changed cell are the same, and those of another cell change exactly by them |
| C177 | both connectivity methods on one array (`Seg/Same`) | C47–C50 and C52–C55 both describe the links of the flow directions |
| C178 | geometry and the chain under a similarity of the plane (`Geom/Similar`, `Pipe/Units`) | distances are multiplied by b, the shoelace sum by s·b², intersections of flow lines with sides are carried along; the chain from C11, C134, C43 |
| C179 | packagedata and reach_data under a similarity (`Reach/Units`) | simulation: both builders run in step on the two data sets, row by row |
| C180 | two runs of `fill_nan_values` (`Nan/Similar`) | both runs pop the same cells; the four aggregates keep conversions and ≤ (sorted lists compared entry by entry); the error bound from the two |
| C181 | `get_cascades` and the builder under a similarity (`Prms/Units`) | fractions are quotients of slopes; C134's slopes, C178 |
| C182 | watershed, delineation and both connectivities (`Pipe/River`) | C36's watershed is closed upstream; accumulated areas grow along the path; one reach or segment without receiver |
| C183 | two delineations and both connectivities (`Pipe/Prune`) | cells cut back keep their receivers; starts of the pruned network are mapped injectively to starts of the full one; a run of cells without start between them stays one |
| C184 | subbasins with the ends of the segments as pour points (`Pipe/Segbasin`) | rows of a segment follow the flow to its end; C38, C129 |
| C185 | watershed as boundary of the many-to-one cascades (`Pipe/Watercasc`) | C36, C62; induction along the path to the outlet |
| C186 | `Float/Casc` rows under `Pipe.Routed` (`Float/Balance`) | weighted balance with weights (1+δ)^h (h+1), h the number of cells below; C156 |
| C187 | `Flood.fillSinks` on an edited DEM (`Flood/Local`) | paths below the filled elevation are the same; C06, C09, C10 |
| C188 | `Dirs.flowDirections` on two DEMs (`Dirs/Local`) | C22, C97, C135: the steepest neighbour is determined locally |
| C189 | flow directions, watershed, accumulation of two DEMs (`Pipe/Away`) | C188 in and beside the watershed; induction along flow paths; C32, C36 |
| C190 | the methods on conjugate flow directions (`Pipe/Renumber`) | C32, C36, C44, C49: flow paths are carried over by the permutation |
| C191 | `Seg.mf2005` on conjugate flow directions (`Pipe/Renumber`) | C56–C58; induction along a segment, starts correspond |
| C192 | `fillSinks` with a mask (`Flood/Mask`) | a run that lifts no stream cell is step by step a run without the stream rules (`flood_same`), then the level theorem; `C192_lifted` shows the condition is needed |
| C193 | `fillSinks` twice (`Flood/Mask`) | both fills are spill elevations; a path to an outlet of the one is a path to an outlet of the other |
| C194 | `fillSinks` with a mask twice (`Flood/MaskMore`) | both fills are spill elevations towards the streams (C192); paths compared; `C194_lowers` shows the condition is needed |
| C195 | `Basin.subbasins`, `Casc.getCascades` on conjugate flow directions (`Pipe/Renumber2`) | C38, C62; first pour points and links are carried over by the permutation |
| C196 | `Irun.irunbnd` on conjugate flow directions (`Pipe/Renumber2`) | false (`C196_refuted`); C65 for cells with one segment downstream |
| C197 | `Casc.getCascades` many-to-many (`Pipe/Renumber2`) | false (`C197_refuted`); candidate lists are permuted, so their sums and shares agree |
| C198 | `Dirs.flowDirections` with `terminals` and `c :: terminals`, then `Basin.watershed`, `Acc.flowAccumulation` (`Pipe/Terminal`) | C188 with equal DEMs; paths agree until they meet `c`; C36, C176 |
| C199 | `threshold_from_control_points` with rounded differences: `Float.fromControlPointsF`, `Delin.delineate` (`Float/Control`) | simulation of the exact run: entries on stems stay at most the accumulated area; C114, C154 |
| C200 | `Float.fillNanF`, then `fillSinksF` and `Dirs.flowDirections` on structured grids (`Float/Gaps`) | the rounded loop and the exact one treat the same cells in step; C20, C137, C161, C162 |
| C201 | `Dirs.flowDirections` on two DEMs (`Dirs/Error`), after `Flood.fillSinks` (`Pipe/Error`) | a clear direction is the only steepest one on both; C97, C174 |
| C202 | Reach.packageData, connData | the row of a reach is read off the graph (connectiondata_eq) and the graph off the flow directions (C49) |
| C203 | Reach.packageData, Rdata.reachData, segmentData for two numberings σ | C54, C202, C191 and reachTable_cases: every column is a function of the cell and its next stream cell |
| C204 | Rdata.reachData, builder for two grids related by a similarity | C179 for the table; the builder's slopes are quotients of elevations and lengths, so they and the limits do not change |
| C205 | fillSinks, flowDirections, flowAccumulation on two structured grids exchanged by a mirror σ | mirroring keeps edge, adjacency (C160_neighbours), distances (middle_flip) and areas; then C123, C135, C190 |
| C206 | Irun.irunbnd, Rdata.builder, Acc.flowAccumulation | C65/C169 say which cells have a target; these are the disjoint union of the watersheds of the exits, whose areas are C32 |
| C207 | Reach.packageData, Rdata.reachData, Geom.slope | C54 and C78 for the same cell, C42 for the slope that packagedata reads |
| C208 | fillSinks, flowDirections, flowAccumulation on an nrow × ncol and an ncol × nrow grid exchanged by a turn σ | equal numbers of cells make the two cell types one (C208_general, by substitution); then as C205 |
| C209 | flowDirections, watershed, flowAccumulation, delineate on a grid and on a part of it (an injection ι of its cells) | C135_value in both; induction along the paths; upstream sets are mapped by ι |
| C210 | fillSinks on a grid and on a part of it (ι as in C209) | paths cut at the border: C06, C10 and C09 in both; C118 and the argument of C117 for filled surfaces; rows and columns for structured grids |
| C211 | the two builders (C168) on a stream array given as such | a stream array without gaps is the delineation, with threshold 1, of the number of stream cells upstream (C31, C32, C44), so that C168 and C169 apply; C115 and C162 for double precision |
| C212 | the two builders on streams clipped to a watershed (C182) | by C57 and C182 only the last segment has outseg 0, and only if p flows on; C72 then gives the exact condition; C88, C164 and C65 for what fits |
| C213 | C40's model with a rounding after each operation (Float/Area.lean) | a repeated vertex contributes 0 even rounded; on a lattice all intermediate numbers are doubles; otherwise the error bound by induction over the vertices; C114_exact and C44 for the streams |
| C214 | `reach_data` with a rounding after each operation and single-precision columns (Rdata/Rounded.lean) | simulation of the exact program on any grid with as many columns; a grid whose slopes tell the next cell gives the values; relative errors of one rounding, of C116's distance, of quotients |
| C215 | `packagedata` with a rounding after each operation (Reach/Rounded.lean), outlet sides included | simulation of the exact program on a grid without three equally spaced cells, whose lengths tell the next cell; C54 for the rest; relative errors as in C214, of sums of positive numbers in any order, of `slope` |
| C216 | the builder with a rounding after each operation and single-precision columns (Rdata/BuildF.lean) | simulation of the exact program (C214 for its table); the limits by monotone rounding; the accuracy by relative errors, with both slopes below the limit where the drop is negative or the quotient subnormal; the second run computes from the same cells |
| C217 | `nash_sutcliffe_efficiency` with a rounding after each operation (Nse/Rounded.lean), sums in any order fixed by the length | monotone rounding and monotone sums; the denominator is positive by the distance of two values from one computed mean; error of sums of squares and of the mean, and the squares from a number are those from the mean plus its distance squared |
| C218 | the loops of `irunbnd` with counters (Irun/Time.lean) | what is taken, and what is compared, by induction on the loop; the visited cells are known from C66; sums over disjoint sets of inflows |
| C219 | the loops of `get_watershed_boundary`, `get_subbasins` and `_reverse_flow_directions` with counters (Basin/Time.lean) | what is taken from the queue plus what is still to come is constant; the sets of different pour points are disjoint by C38's invariant; each table entry is found behind the earlier inflows |
| C220 | the search for the next pour points with counters (Basin/Walk.lean) | the visited cells are different and never the pour point; a row of cells with as many pour points above it |
| C221 | the loops of `_priority_flood` with counters (Flood/Time.lean) | the ghost list of cells taken has no repetition and holds the cells connected to an outlet (C04's invariant); every entry of `pit` is taken later |
| C222 | `_sort_util` and `sort` with counters (Topo/Time.lean) | calls plus visits of 0 plus length of the list by induction on the call depth; with one outlet the list is empty when its segment is appended, by a rank (number of upstream segments) |
| C223 | `_mf2005_stream_connectivity` (grouped) with counters (Seg/Time.lean); numpy's own scans of the stream cells are not counted | looking for D different cells in a list of D entries by induction on the list; turns = rows written, which C56 describes |
