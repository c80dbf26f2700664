{"id": "C01", "title": "fill_sinks never lowers a cell", "statement": "For every grid and DEM, and for each of the methods 'priority', 'complete' and 'drain', with or without a stream_mask, every cell of the array fill_sinks returns is at least as high as the same cell of the input DEM ('drain' additionally needs input elevations not above its 1e10 flood level).", "quantifier": "every finite grid (any neighbour lists), every DEM, every mask, every eps >= 0", "why_tests_cant": "a test checks one 5x5 array; the claim is about all topologies and elevations", "anchors": ["dany/dem_conditioning.py:fill_sinks", "dany/dem_conditioning.py:_priority_flood", "dany/dem_conditioning.py:_flood_and_drain_fill"]}
{"id": "C02", "title": "edge cells keep their elevation", "statement": "Without a stream_mask, fill_sinks returns the input elevation unchanged at every grid-edge cell, for all three methods.", "quantifier": "every finite grid (any neighbour lists), every DEM and eps", "why_tests_cant": "holds for every processing order and neighbour structure, not just a sample", "anchors": ["dany/dem_conditioning.py:fill_sinks", "dany/dem_conditioning.py:_priority_flood", "dany/dem_conditioning.py:_flood_and_drain_fill"]}
{"id": "C03", "title": "filled DEM has no sinks", "statement": "After fill_sinks(method='priority') with an eps that strictly raises elevations, every cell connected to the grid edge has a strictly descending neighbour-to-neighbour path to an edge cell; after 'complete' it has a never-ascending one.", "quantifier": "every finite grid (any neighbour lists), every DEM", "why_tests_cant": "existence of a path from every cell on every mesh is an unbounded statement", "anchors": ["dany/dem_conditioning.py:_priority_flood"]}
{"id": "C04", "title": "disconnected cells are left alone", "statement": "Cells not connected to any edge (seed) cell are returned unchanged by 'priority' and 'complete'.", "quantifier": "every finite grid (any neighbour lists), every DEM", "why_tests_cant": "needs all disconnected topologies", "anchors": ["dany/dem_conditioning.py:_priority_flood"]}
{"id": "C05", "title": "priority flood terminates, one visit per cell", "statement": "fill_sinks with 'priority'/'complete' (with or without stream mask) finishes on every input after exactly one visit of each cell connected to the seeds, and never indexes out of range even if neighbour lists mention nodes outside the layer.", "quantifier": "every finite grid (any neighbour lists), every DEM and seed set", "why_tests_cant": "termination on all inputs cannot be tested", "anchors": ["dany/dem_conditioning.py:_priority_flood"]}
{"id": "C06", "title": "complete fill is the spill elevation", "statement": "fill_sinks(method='complete') assigns every connected cell its spill elevation: the minimum over all paths from an edge cell of the highest input elevation on that path.", "quantifier": "every finite grid (any neighbour lists), every DEM", "why_tests_cant": "quantifies over all paths of all grids", "anchors": ["dany/dem_conditioning.py:_priority_flood"]}
{"id": "C07", "title": "complete fill is idempotent", "statement": "Filling an already completely filled DEM again with 'complete' changes nothing.", "quantifier": "every finite grid (any neighbour lists), every DEM", "why_tests_cant": "universal law", "anchors": ["dany/dem_conditioning.py:fill_sinks"]}
{"id": "C08", "title": "complete fill is monotone", "statement": "If one DEM is nowhere higher than another, its completely filled version is nowhere higher than the other's.", "quantifier": "every finite grid (any neighbour lists), every DEM pairs", "why_tests_cant": "relates two arbitrary runs", "anchors": ["dany/dem_conditioning.py:fill_sinks"]}
{"id": "C09", "title": "epsilon overfill is bounded", "statement": "With 'priority', a cell connected to an edge ends at least at its spill elevation and at most N successive eps-increments above it, N being the number of cells.", "quantifier": "every finite grid (any neighbour lists), every DEM and eps", "why_tests_cant": "bound over all runs", "anchors": ["dany/dem_conditioning.py:_priority_flood"]}
{"id": "C10", "title": "drain computes the lowest eps-drained surface", "statement": "When fill_sinks(method='drain') returns, each cell holds the least value reachable along any path from an edge cell when every step must rise by eps or to the ground, or the 1e10 flood level if no such value lies below it; so the result does not depend on cell numbering or sweep order.", "quantifier": "every finite grid (any neighbour lists), every DEM and eps", "why_tests_cant": "fixpoint characterisation over all schedules", "anchors": ["dany/dem_conditioning.py:_flood_and_drain_fill", "dany/dem_conditioning.py:_inner_flood_and_drain_fill"]}
{"id": "C11", "title": "drain terminates", "statement": "The 'drain' iteration reaches a sweep with no modification after finitely many sweeps, for every DEM and every eps >= 0 in exact arithmetic.", "quantifier": "every finite grid (any neighbour lists), every DEM and eps", "why_tests_cant": "termination of an unbounded while loop", "anchors": ["dany/dem_conditioning.py:_flood_and_drain_fill"]}
{"id": "C12", "title": "drain without eps equals complete", "statement": "With eps = 0, 'drain' and 'complete' return the same array on every cell connected to the edge (spill elevations not above 1e10).", "quantifier": "every finite grid (any neighbour lists), every DEM", "why_tests_cant": "equivalence of two algorithms on all inputs", "anchors": ["dany/dem_conditioning.py:_flood_and_drain_fill", "dany/dem_conditioning.py:_priority_flood"]}
{"id": "C13", "title": "stream-mask filling drains to streams", "statement": "With a stream_mask, every cell connected to a stream cell has a strictly descending path (strict eps) to a stream cell in the returned DEM.", "quantifier": "every finite grid (any neighbour lists), every DEM and mask", "why_tests_cant": "all meshes and masks", "anchors": ["dany/dem_conditioning.py:_priority_flood"]}
{"id": "C14", "title": "stream-mask filling removes pits along the stream", "statement": "With a stream_mask, no stream cell with two or more neighbouring stream cells is left lower than all of them.", "quantifier": "every finite grid (any neighbour lists), every DEM and mask", "why_tests_cant": "needs all masks; in fact false of the code, which one sample would not reveal", "anchors": ["dany/dem_conditioning.py:_priority_flood"]}
{"id": "C15", "title": "edge-cell identification", "statement": "The edge cells used as seeds are exactly the cells having a polygon side that no other cell shares, listed in increasing order without repetition; the result does not depend on where a polygon starts, its orientation, or whether its first vertex is repeated at the end.", "quantifier": "every mesh given as vertex lists", "why_tests_cant": "all meshes", "anchors": ["dany/dem_conditioning.py:_identify_edge_nodes"]}
{"id": "C16", "title": "edge cells of a rectangular grid", "statement": "On a structured nrow x ncol grid the edge cells are exactly those in the first or last row or the first or last column.", "quantifier": "every nrow, ncol >= 1", "why_tests_cant": "all sizes", "anchors": ["dany/dem_conditioning.py:_identify_edge_nodes"]}
{"id": "C17", "title": "method dispatch", "statement": "fill_sinks with a stream_mask always uses a priority flood seeded by the mask's positive cells (any other method name is treated as 'priority'); without a mask 'priority' and 'complete' (any letter case) use the edge cells, 'complete' ignores eps, and any other name means 'drain'.", "quantifier": "every method string, mask, eps", "why_tests_cant": "all strings", "anchors": ["dany/dem_conditioning.py:fill_sinks"]}
{"id": "C18", "title": "fill_nan_values keeps valid cells", "statement": "fill_nan_values never changes a cell that holds a number.", "quantifier": "every DEM with gaps, every method, every grid", "why_tests_cant": "all gap patterns", "anchors": ["dany/dem_conditioning.py:fill_nan_values"]}
{"id": "C19", "title": "fill_nan_values fills with values in range", "statement": "Whenever fill_nan_values returns, no NaN is left and every filled value lies between the smallest and the largest valid input value, for 'mean', 'median', 'min' and 'max'.", "quantifier": "every DEM with gaps, four methods", "why_tests_cant": "all gap patterns", "anchors": ["dany/dem_conditioning.py:fill_nan_values"]}
{"id": "C20", "title": "fill_nan_values terminates", "statement": "fill_nan_values returns for every DEM in which each connected gap touches a valid cell. (False of the code: it loops forever unless every NaN cell has a neighbour that is valid or a higher-numbered NaN cell.)", "quantifier": "every DEM with gaps", "why_tests_cant": "non-termination cannot be established by a test", "anchors": ["dany/dem_conditioning.py:fill_nan_values"]}
{"id": "C21", "title": "every cell gets a legal flow direction", "statement": "After flow_directions() no cell is left unassigned: each holds its own number, the sink code -2, or the number of one of its neighbours.", "quantifier": "every grid, DEM, threshold, terminal cells", "why_tests_cant": "all meshes incl. flats and ties", "anchors": ["dany/flow_directions.py:flow_directions", "dany/flow_directions.py:_calculate_flowcell"]}
{"id": "C22", "title": "flow goes to a steepest neighbour", "statement": "Whenever a cell's flow direction is a neighbour, that neighbour attains the minimum (steepest downward) slope among all the cell's neighbours, also on flats and after tie resolution.", "quantifier": "every grid, DEM, threshold, terminal cells", "why_tests_cant": "all tie patterns", "anchors": ["dany/flow_directions.py:_calculate_flowcell", "dany/flow_directions.py:_resolve_flats"]}
{"id": "C23", "title": "terminal cells stay terminal", "statement": "The minimum-elevation cell and the user's terminal_cells still flow to themselves after flow_directions(). (False of the code: resolving a tie next to an outlet can re-route the outlet uphill.)", "quantifier": "every grid and DEM", "why_tests_cant": "needs the rare tie next to an outlet", "anchors": ["dany/flow_directions.py:flow_directions", "dany/flow_directions.py:_calculate_flowcell"]}
{"id": "C24", "title": "nodata cells flow to themselves", "statement": "A cell with NaN elevation always flows to itself, and no other cell flows into it.", "quantifier": "every grid and DEM with NaN", "why_tests_cant": "all NaN patterns", "anchors": ["dany/flow_directions.py:_calculate_flowcell", "dany/flow_directions.py:_calculate_slopes"]}
{"id": "C25", "title": "flow is downhill where possible", "statement": "If a non-terminal cell has a strictly lower neighbour, its flow direction is a strictly lower cell or the sink code; hence following flow directions through such cells never returns to a cell already visited.", "quantifier": "every grid and DEM", "why_tests_cant": "all paths", "anchors": ["dany/flow_directions.py:_calculate_slopes", "dany/flow_directions.py:_calculate_flowcell"]}
{"id": "C26", "title": "flow_directions terminates without error", "statement": "flow_directions() finishes without exception on every NaN-free DEM on a grid where every cell has a neighbour and neighbours are in range (fewer than 999000 cells).", "quantifier": "every such grid, DEM, terminal cells", "why_tests_cant": "two nested unbounded while loops", "anchors": ["dany/flow_directions.py:_calculate_flowcell"]}
{"id": "C27", "title": "fill then route drains everything to the edge", "statement": "After fill_sinks(priority) with strict eps, every connected interior cell with a flow direction other than the sink code flows to a strictly lower cell, and if slopes have no ties following flow directions from it reaches an edge cell in finitely many steps.", "quantifier": "every connected grid and DEM", "why_tests_cant": "composition of two algorithms on all inputs", "anchors": ["dany/dem_conditioning.py:_priority_flood", "dany/flow_directions.py:_calculate_flowcell"]}
{"id": "C28", "title": "unique outlet check", "statement": "FlowDirections(check_elevations=True) raises exactly when two or more cells share the minimum non-NaN elevation.", "quantifier": "every DEM", "why_tests_cant": "all DEMs", "anchors": ["dany/flow_directions.py:FlowDirections.__init__"]}
{"id": "C29", "title": "flow_directions is history independent", "statement": "The array returned by flow_directions(burn_threshold, terminal_cells) depends only on the grid, the DEM and its arguments, not on any earlier sequence of calls on the object, although internal neighbour lists are padded in place.", "quantifier": "every call history", "why_tests_cant": "all histories", "anchors": ["dany/flow_directions.py:flow_directions", "dany/flow_directions.py:_fill_irregular_neighbor_array"]}
{"id": "C30", "title": "inflow counts", "statement": "get_nidp() gives for each cell the number of cells flowing into it, and the counts sum to the number of cells.", "quantifier": "every flow-direction array", "why_tests_cant": "all arrays", "anchors": ["dany/flow_directions.py:get_nidp"]}
{"id": "C31", "title": "flow accumulation terminates", "statement": "flow_accumulation() finishes for every flow-direction array whose entries are valid indices, including arrays with cycles.", "quantifier": "every flow-direction array", "why_tests_cant": "termination", "anchors": ["dany/flow_directions.py:flow_accumulation"]}
{"id": "C32", "title": "flow accumulation is the upstream sum", "statement": "flow_accumulation() returns, at every cell that is not on a flow cycle of length two or more, the sum of the areas (or the number, as_cells=True) of all cells whose flow path passes through it, itself included.", "quantifier": "every flow-direction array and area array", "why_tests_cant": "induction over all graphs", "anchors": ["dany/flow_directions.py:flow_accumulation"]}
{"id": "C33", "title": "accumulation conserves area", "statement": "If every flow path ends in an outlet (a cell flowing to itself), the accumulated areas at the outlets add up to the total area of the grid.", "quantifier": "every such flow-direction array", "why_tests_cant": "all graphs", "anchors": ["dany/flow_directions.py:flow_accumulation"]}
{"id": "C34", "title": "accumulation grows downstream", "statement": "For a cell not on a cycle, the accumulated value of the cell it flows to is at least its own value plus the receiving cell's own area (non-negative areas).", "quantifier": "every flow-direction array", "why_tests_cant": "all graphs", "anchors": ["dany/flow_directions.py:flow_accumulation"]}
{"id": "C35", "title": "sinks do not drain elsewhere", "statement": "The area of a cell marked as sink (-2) is not credited to any other cell by flow_accumulation(). (False of the code: -2 is used as an array index and credits the second-to-last cell.)", "quantifier": "every flow-direction array with sinks", "why_tests_cant": "needs DEMs with unresolved flats", "anchors": ["dany/flow_directions.py:get_nidp", "dany/flow_directions.py:flow_accumulation"]}
{"id": "C36", "title": "watershed is the upstream set", "statement": "get_watershed_boundary(point), called when no reversed flow-direction table is cached, terminates and marks exactly the cells whose flow path passes through the pour point's cell, including that cell.", "quantifier": "every flow-direction array and pour point", "why_tests_cant": "all graphs incl. cycles", "anchors": ["dany/flow_directions.py:get_watershed_boundary", "dany/flow_directions.py:_reverse_flow_directions"]}
{"id": "C37", "title": "watershed follows the latest flow directions", "statement": "get_watershed_boundary(point) reflects the most recent flow_directions() call. (False of the code: the reversed table is cached forever.)", "quantifier": "every call history", "why_tests_cant": "needs the right history", "anchors": ["dany/flow_directions.py:_reverse_flow_directions", "dany/flow_directions.py:get_watershed_boundary"]}
{"id": "C38", "title": "subbasin labels", "statement": "get_subbasins(points) labels every cell with the number of the first pour point on its flow path (its own cell included) and with 0 if there is none, provided no pour point lies in cell 0 and pour points are not on flow cycles.", "quantifier": "every flow-direction array and list of pour points", "why_tests_cant": "all graphs and pour-point sets", "anchors": ["dany/flow_directions.py:get_subbasins", "dany/flow_directions.py:get_watershed_boundary", "dany/stream_util.py:Topology"]}
{"id": "C39", "title": "subbasin at cell number 0", "statement": "A pour point located in cell 0 gets a subbasin like any other. (False of the code: cell number 0 collides with the sort's outlet code and is dropped or raises.)", "quantifier": "every flow-direction array", "why_tests_cant": "needs a pour point in the very first cell", "anchors": ["dany/flow_directions.py:get_subbasins", "dany/stream_util.py:Topology.sort"]}
{"id": "C40", "title": "cell area", "statement": "The area of a cell is non-negative, and does not change when its polygon is translated, listed from another start vertex, listed in the opposite orientation, or padded by repeating its last vertex; cutting a polygon along a chord splits its signed area additively; for a rectangle it is width times height.", "quantifier": "every polygon", "why_tests_cant": "all polygons", "anchors": ["dany/flow_directions.py:_shoelace_area"]}
{"id": "C41", "title": "aspect and vectors", "statement": "aspect lies in [0, 360) degrees; vectors returns unit vectors pointing from each cell centre to the centre of the cell it flows to (aspect 0 and vector (1, 0) for a cell flowing to itself).", "quantifier": "every flow-direction array and geometry", "why_tests_cant": "real-valued identity", "anchors": ["dany/flow_directions.py:aspect", "dany/flow_directions.py:vectors"]}
{"id": "C42", "title": "slope of the drainage path", "statement": "slope is 0 at cells flowing to themselves, non-negative at cells flowing to a cell not above them, and equals drop over distance when the drop is at least 1e-6 or negative.", "quantifier": "every flow-direction array and DEM", "why_tests_cant": "all DEMs", "anchors": ["dany/flow_directions.py:slope"]}
{"id": "C43", "title": "hru length", "statement": "hru_len of a cell is twice the mean distance from its centre to the faces or vertices shared with its inflowing and outflowing cells, hence never negative, and is defined whenever each flow connection shares a vertex.", "quantifier": "every flow-direction array and geometry", "why_tests_cant": "all meshes", "anchors": ["dany/flow_directions.py:_calculate_hru_len", "dany/flow_directions.py:_get_shared_vertex"]}
{"id": "C44", "title": "stream delineation is thresholding", "statement": "delineate_streams marks exactly the cells with accumulation at least the threshold and inside basin_boundary; raising the threshold never adds stream cells; an array threshold of wrong size is rejected.", "quantifier": "every accumulation array, threshold, boundary", "why_tests_cant": "all arrays", "anchors": ["dany/stream_util.py:delineate_streams", "dany/stream_util.py:set_stream_array"]}
{"id": "C45", "title": "delineated streams are continuous", "statement": "With a constant threshold and accumulation from flow_accumulation(), the cell downstream of a stream cell (not on a cycle) is a stream cell, so streams never break before the outlet.", "quantifier": "every flow-direction array and threshold", "why_tests_cant": "composition on all graphs", "anchors": ["dany/stream_util.py:delineate_streams", "dany/flow_directions.py:flow_accumulation"]}
{"id": "C46", "title": "topological sort is a permutation", "statement": "Topology.sort returns each nonzero segment exactly once, for every network whose outlet references exist, cyclic or not.", "quantifier": "every segment graph", "why_tests_cant": "all graphs", "anchors": ["dany/stream_util.py:Topology.sort", "dany/stream_util.py:Topology._sort_util"]}
{"id": "C47", "title": "topological sort puts upstream first", "statement": "In the list returned by Topology.sort every segment precedes the segment it flows into, for every network without directed cycles of length two or more.", "quantifier": "every acyclic segment graph", "why_tests_cant": "all graphs", "anchors": ["dany/stream_util.py:Topology.sort"]}
{"id": "C48", "title": "topological sort handles long rivers", "statement": "Topology.sort succeeds on every acyclic network regardless of length. (False of the code: recursion depth equals the length of an unvisited chain, so any Python recursion limit is exceeded by some network.)", "quantifier": "every recursion limit and network", "why_tests_cant": "needs arbitrarily long chains", "anchors": ["dany/stream_util.py:Topology._sort_util"]}
{"id": "C49", "title": "MF6 reach numbering is a bijection", "statement": "get_stream_connectivity (MODFLOW 6) numbers the stream cells 1..k, each number used once; its graph has exactly the keys 1..k and maps a cell's reach to the reach of the cell it flows to, or 0 if that cell is not a stream.", "quantifier": "every flow-direction array and stream array", "why_tests_cant": "all networks", "anchors": ["dany/stream_util.py:_mf6_stream_connectivity"]}
{"id": "C50", "title": "MF6 reaches are numbered downstream", "statement": "In the MF6 graph a reach's downstream reach number is 0, the reach itself (outlet) or larger than the reach's own number, if the stream network has no cycle of length two or more.", "quantifier": "every acyclic stream network", "why_tests_cant": "all networks", "anchors": ["dany/stream_util.py:_mf6_stream_connectivity"]}
{"id": "C51", "title": "MF6 connectivity is repeatable", "statement": "Calling get_stream_connectivity() again on its own result returns the same graph and stream array.", "quantifier": "every network", "why_tests_cant": "fixpoint law", "anchors": ["dany/stream_util.py:_mf6_stream_connectivity"]}
{"id": "C52", "title": "connectiondata is reciprocal", "statement": "In connectiondata() a reach lists another as downstream exactly if the other lists it as upstream, in one row per reach, so the numbers of entries sum to twice the number of connections between different reaches.", "quantifier": "every reach graph", "why_tests_cant": "all graphs", "anchors": ["dany/stream_util.py:Sfr6.connectiondata"]}
{"id": "C53", "title": "connectiondata signs are unambiguous", "statement": "For a downstream-numbered graph every zero-based entry of connectiondata() can be decoded: non-positive (i.e. -0 or negative) downstream entries never collide with upstream reach 0. (For arbitrary graphs the encoding of downstream reach 1 is 0, the same as upstream reach 1.)", "quantifier": "every reach graph", "why_tests_cant": "all graphs", "anchors": ["dany/stream_util.py:Sfr6.connectiondata"]}
{"id": "C54", "title": "packagedata matches the network", "statement": "packagedata() has one record per reach in increasing reach order, located in the cell carrying that reach number, with ncon equal to the number of entries of the reach in connectiondata, slope and top of that cell.", "quantifier": "every network", "why_tests_cant": "all networks", "anchors": ["dany/stream_util.py:Sfr6.packagedata"]}
{"id": "C55", "title": "packagedata accepts a stream array", "statement": "packagedata(stream_array) works for a binary stream array. (False of the code: with two or more stream cells it raises IndexError because the un-numbered array is searched for reach numbers.)", "quantifier": "every binary stream array", "why_tests_cant": "all arrays", "anchors": ["dany/stream_util.py:Sfr6.packagedata"]}
{"id": "C56", "title": "MF2005 segments partition the stream", "statement": "Grouped MF2005 connectivity assigns every stream cell to exactly one (segment, reach), reach numbers within a segment are 1..m going downstream, for every stream network in which every stream cell lies downstream of a headwater. The construction always terminates, also on cyclic networks. (A stream consisting only of a flow cycle or an isolated self-draining outlet gets no segment.)", "quantifier": "every flow-direction array and stream array", "why_tests_cant": "all networks", "anchors": ["dany/stream_util.py:_mf2005_stream_connectivity"]}
{"id": "C57", "title": "MF2005 segment graph", "statement": "The last cell of a segment flows to the first cell of the segment named as its outseg, or leaves the stream network if outseg is 0; segments start exactly at headwaters and confluences.", "quantifier": "every network", "why_tests_cant": "all networks", "anchors": ["dany/stream_util.py:_mf2005_stream_connectivity"]}
{"id": "C58", "title": "MF2005 segments are numbered downstream", "statement": "Segments are numbered 1..k and every outseg is 0, the segment itself or larger, on networks without segment cycles of length two or more.", "quantifier": "every network", "why_tests_cant": "all networks", "anchors": ["dany/stream_util.py:_mf2005_stream_connectivity"]}
{"id": "C59", "title": "ungrouped segments", "statement": "With group_segments=False every stream cell becomes its own segment with reach 1, and outseg is the segment of the cell it flows to, 0 if it leaves the stream or flows to itself.", "quantifier": "every network", "why_tests_cant": "all networks", "anchors": ["dany/stream_util.py:_mf2005_stream_connectivity"]}
{"id": "C60", "title": "MF2005 connectivity on unstructured grids", "statement": "Grouped connectivity works on every supported grid type. (False of the code: on an unstructured grid the final reshape raises unless the grid has exactly one cell.)", "quantifier": "every unstructured grid", "why_tests_cant": "all grids", "anchors": ["dany/stream_util.py:_mf2005_stream_connectivity"]}
{"id": "C61", "title": "many-to-one cascades list each cell once", "statement": "get_cascades(many2many=False) lists every active cell exactly once as hru_up. (False of the code: a cell is listed as many times as there are cells sharing its downstream cell; the exact multiplicity is proved.)", "quantifier": "every flow-direction array and boundary", "why_tests_cant": "all graphs", "anchors": ["dany/stream_util.py:_build_many_to_one_cascades"]}
{"id": "C62", "title": "many-to-one cascade links are flow directions", "statement": "Without a basin boundary every cascade link produced by many-to-one goes from a cell to the cell it flows to with fraction 1, and every cell occurs; with a boundary, a cell flowing out of the basin yields the self-link of the inactive receiving cell.", "quantifier": "every flow-direction array and boundary", "why_tests_cant": "all graphs", "anchors": ["dany/stream_util.py:_build_many_to_one_cascades", "dany/stream_util.py:get_cascades"]}
{"id": "C63", "title": "many-to-many fractions sum to one", "statement": "For every landscape cell with at least one lower neighbour and fewer than 100 candidate neighbours, the fractions of its cascade links are all positive, and sum to 1.", "quantifier": "every slope array and graph", "why_tests_cant": "algebraic identity", "anchors": ["dany/stream_util.py:_build_many_to_many_cascades"]}
{"id": "C64", "title": "many-to-many links stay inside the basin", "statement": "No many-to-many cascade link leads to an inactive cell. (False of the code: the filter compares with 0 instead of the inactive code -9; it drops links to cells draining into cell 0 and keeps links to inactive cells.)", "quantifier": "every graph and boundary", "why_tests_cant": "all graphs", "anchors": ["dany/stream_util.py:_build_many_to_many_cascades"]}
{"id": "C65", "title": "irunbnd routes runoff to a downstream segment", "statement": "irunbnd gives a cell a nonzero value exactly if some stream cell lies on its flow path (itself included), and that value is the segment of a stream cell on its flow path.", "quantifier": "every flow-direction array and stream array", "why_tests_cant": "all graphs", "anchors": ["dany/stream_util.py:Sfr2005.irunbnd"]}
{"id": "C66", "title": "irunbnd picks the first stream segment met", "statement": "irunbnd assigns each cell the segment of the first stream cell on its flow path. (False of the code: traversal does not stop at upstream stream cells.)", "quantifier": "every graph", "why_tests_cant": "all graphs", "anchors": ["dany/stream_util.py:Sfr2005.irunbnd"]}
{"id": "C67", "title": "stream vectors", "statement": "create_stream_vectors terminates and returns, for every segment downstream of a headwater segment, its cells in flow order followed by the first cell of the downstream segment; single-cell terminal segments are omitted.", "quantifier": "every segment graph", "why_tests_cant": "all graphs", "anchors": ["dany/stream_util.py:create_stream_vectors"]}
{"id": "C68", "title": "control-point thresholds", "statement": "threshold_from_control_points marks, for each control point, a chain of cells following upstream the inflowing neighbour with largest accumulation; these cells are all delineated when the result is used as contrib_area; it terminates on acyclic flow directions. (On a two-cell flow cycle it can loop forever.)", "quantifier": "every flow-direction array, accumulation, points", "why_tests_cant": "termination", "anchors": ["dany/stream_util.py:threshold_from_control_points", "dany/stream_util.py:delineate_streams"]}
{"id": "C69", "title": "builder keyword defaults", "statement": "Sfr2005.get_pygsflow_builder_object accepts the documented keyword overrides. (False of the code: any keyword other than group_segments raises.)", "quantifier": "every keyword dictionary", "why_tests_cant": "all keyword sets", "anchors": ["dany/stream_util.py:Sfr2005.get_pygsflow_builder_object"]}
{"id": "C70", "title": "builder slopes are clamped", "statement": "With apply_defaults every reach slope returned by the builder that is a number lies between min_slope and max_slope, and it is a number whenever the grid has no missing elevations.", "quantifier": "every reach table", "why_tests_cant": "all inputs", "anchors": ["dany/stream_util.py:Sfr2005.get_pygsflow_builder_object"]}
{"id": "C71", "title": "reach_data numbering", "statement": "reach_data numbers reaches 1..n in order of segment and position within the segment, one record per (segment, reach).", "quantifier": "every network", "why_tests_cant": "all networks", "anchors": ["dany/stream_util.py:Sfr2005.reach_data"]}
{"id": "C72", "title": "reach_data never fails on a valid network", "statement": "reach_data succeeds for every valid network. (False of the code: it looks up the grid column as if it were the segment number and raises KeyError for some networks.)", "quantifier": "every network", "why_tests_cant": "needs a coincidence between column and segment number", "anchors": ["dany/stream_util.py:Sfr2005.reach_data"]}
{"id": "C73", "title": "segment_data", "statement": "segment_data lists segments in increasing number with the outseg of the connectivity graph.", "quantifier": "every network", "why_tests_cant": "all networks", "anchors": ["dany/stream_util.py:Sfr2005.segment_data"]}
{"id": "C74", "title": "connectivity follows re-delineation", "statement": "connectiondata() and packagedata() describe the current stream array after delineate_streams() is called again. (False of the code: the cached graph is kept.)", "quantifier": "every call history", "why_tests_cant": "all histories", "anchors": ["dany/stream_util.py:Sfr6.connectiondata", "dany/stream_util.py:Sfr6.packagedata", "dany/stream_util.py:delineate_streams"]}
{"id": "C75", "title": "stream vectors do not disturb SFR6 data", "statement": "Calling create_stream_vectors() on an Sfr6 object does not change later connectiondata() output. (False of the code: it replaces the cached reach graph by a cell graph.)", "quantifier": "every call history", "why_tests_cant": "all histories", "anchors": ["dany/stream_util.py:create_stream_vectors", "dany/stream_util.py:Sfr6.connectiondata"]}
{"id": "C76", "title": "cascade stream segments", "statement": "hru_strmseg_down_id of a cascade link is the segment number of the receiving cell, 0 if that cell is not a stream, and up/down ids are one-based cell numbers.", "quantifier": "every cascade list", "why_tests_cant": "all graphs", "anchors": ["dany/stream_util.py:get_cascades"]}
{"id": "C77", "title": "saved objects can be read back", "statement": "After any sequence of finished write calls on any files, read(f) returns the object of the last write(f); files that were not written to are unchanged.", "quantifier": "every sequence of write calls, every object and file, bytes reaching the file in blocks of any size", "why_tests_cant": "all histories of calls on all objects", "anchors": ["dany/stream_util.py:PygsflowCompatBase.write", "dany/stream_util.py:PygsflowCompatBase.read"]}
{"id": "C78", "title": "reach length and slope", "statement": "In reach_data a reach whose cell flows to another stream cell has length 1.5 times the distance of the two cell centres and slope drop over length; a reach whose cell leaves the stream or flows to itself has length 1.5 times the mean of the cell's width and height and slope 0.0001.", "quantifier": "every network, grid and elevations", "why_tests_cant": "all networks", "anchors": ["dany/stream_util.py:Sfr2005.reach_data"]}
{"id": "C79", "title": "reach_data describes the array passed", "statement": "reach_data(stream_array) describes the stream array passed to it. (False of the code: once the object holds a network the argument is ignored.)", "quantifier": "every call history", "why_tests_cant": "all histories", "anchors": ["dany/stream_util.py:Sfr2005.reach_data"]}
{"id": "C80", "title": "builder slopes follow the stream", "statement": "With apply_defaults the builder gives each reach the (limited) slope towards its downstream reach. (False of the code for its own reach table: outreach is never filled in, so that every slope is the slope towards the last reach of the table.)", "quantifier": "every network", "why_tests_cant": "all networks", "anchors": ["dany/stream_util.py:Sfr2005.get_pygsflow_builder_object", "dany/stream_util.py:Sfr2005.reach_data"]}
{"id": "C81", "title": "builder segment defaults", "statement": "With apply_defaults the builder's segment table has the segments and outsegs of the table used, the documented default in each of the nine parameter columns, and the other columns unchanged.", "quantifier": "every segment table", "why_tests_cant": "all tables", "anchors": ["dany/stream_util.py:Sfr2005.get_pygsflow_builder_object"]}
{"id": "C82", "title": "integer DEMs drain strictly", "statement": "Filling a DEM stored as integers with method 'priority' leaves every cell connected to an outlet on a strictly descending path. (False of the code for eps < 1: the increment is truncated on assignment, pits stay flat; true for eps >= 1.)", "quantifier": "every grid, integer DEM, mask and eps", "why_tests_cant": "all grids and elevations", "anchors": ["dany/dem_conditioning.py:fill_sinks", "dany/dem_conditioning.py:_priority_flood"]}
{"id": "C83", "title": "what 'priority' does to integer DEMs", "statement": "On an integer DEM without negative elevations and with 0 <= eps < 1, method 'priority' gives exactly the result of 'complete', namely the spill elevation of each cell; with negative elevations the result lies between the spill elevation w and max(w, min(w+N, 0)).", "quantifier": "every grid, integer DEM, mask and eps in [0,1)", "why_tests_cant": "all grids and elevations", "anchors": ["dany/dem_conditioning.py:fill_sinks", "dany/dem_conditioning.py:_priority_flood"]}
{"id": "C84", "title": "value of filled NaN cells", "statement": "When fill_nan_values returns, every cell that was NaN holds the mean (median, min, max) of the result values of exactly those neighbours which were valid or have a higher cell number.", "quantifier": "every grid, every pattern of NaN cells, every method", "why_tests_cant": "all patterns of gaps", "anchors": ["dany/dem_conditioning.py:fill_nan_values"]}
{"id": "C85", "title": "unknown fill method is rejected", "statement": "fill_nan_values raises NotImplementedError for an unknown method name. (False of the code when no cell is NaN: any name is accepted; true otherwise.)", "quantifier": "every grid and DEM, every unknown method name", "why_tests_cant": "all method names", "anchors": ["dany/dem_conditioning.py:fill_nan_values"]}
{"id": "C86", "title": "Nash-Sutcliffe efficiency", "statement": "For observations that are not all equal the efficiency is at most 1, is 1 exactly when simulation and observation agree wherever both are given, is 0 for the mean of the observations, does not depend on units; the normalised value lies in (0,1] and is 1/(2-NSE).", "quantifier": "all series, with or without missing values", "why_tests_cant": "all series of any length", "anchors": ["examples/nse_util.py:nash_sutcliffe_efficiency"]}
{"id": "C87", "title": "missing simulation is not rewarded", "statement": "A simulation without values does not get a perfect score. (False of the code: it scores 1, and dropping simulated values never lowers the score.)", "quantifier": "all series with missing values", "why_tests_cant": "all patterns of missing values", "anchors": ["examples/nse_util.py:nash_sutcliffe_efficiency"]}
{"id": "C88", "title": "PRMS builder object is consistent", "statement": "The object PrmsStreams.get_pygsflow_builder_object returns is consistent: ncascade is the number of links; upstream and downstream cell numbers lie in 1..N; the stream segment of a link is the number the stored array has at the receiving cell, lies in 0..nsegments, is 0 exactly off the stream (if every stream cell is downstream of a headwater, or segments are not grouped); nsegments counts the segments of the network, nreaches the stream cells; the flag is 0 for many-to-many and 1 for many-to-one. For legal directions the call succeeds.", "quantifier": "every legal flow-direction array, stream array, active array, grouping and cascade kind", "why_tests_cant": "all networks", "anchors": ["dany/stream_util.py:PrmsStreams.get_pygsflow_builder_object", "dany/stream_util.py:PygsflowCascades"]}
{"id": "C89", "title": "get_cascades uses the network of the array it is given", "statement": "get_cascades(stream_array) labels links with the segment numbers of that array's network. (False of the code once a connectivity is stored: the raw array values are used, so all links of a binary array get segment 1, and group_segments is ignored; true for the first call.)", "quantifier": "every stream array and every history of calls", "why_tests_cant": "all histories", "anchors": ["dany/stream_util.py:PrmsStreams.get_cascades"]}
{"id": "C90", "title": "builder geometry matches the links", "statement": "In a many-to-one builder object the aspect of an upstream cell points from its centre to the centre of the downstream cell of its link, its slope is the drop over the distance between them and its area is that of the flow-direction object.", "quantifier": "every legal flow-direction array and geometry", "why_tests_cant": "all grids", "anchors": ["dany/stream_util.py:PrmsStreams.get_pygsflow_builder_object", "dany/flow_directions.py:FlowDirections.aspect", "dany/flow_directions.py:FlowDirections.slope"]}
{"id": "C91", "title": "own arrays are safe to reuse", "statement": "A program that writes only into arrays it created (for instance the DEM it passed in) or got from stream_array, and did not give to set_stream_array, gets from every call the value it would get if all arrays were passed by value.", "quantifier": "every sequence of calls and of writes in between", "why_tests_cant": "all interleavings of calls and writes", "anchors": ["dany/flow_directions.py:FlowDirections.__init__", "dany/stream_util.py:StreamBase.stream_array", "dany/stream_util.py:StreamBase.get_stream_connectivity"]}
{"id": "C92", "title": "returned arrays are copies", "statement": "Arrays given to or returned by the objects are independent of their state. (False of the code for dem, flow_directions, flow_direction_array, flow_accumulation, flow_accumulation_array, delineate_streams and set_stream_array: writing into them changes the object; true for stream_array.)", "quantifier": "every state of the objects, every cell and value written", "why_tests_cant": "all states and writes", "anchors": ["dany/flow_directions.py:FlowDirections.flow_direction_array", "dany/flow_directions.py:FlowDirections.flow_accumulation_array", "dany/stream_util.py:StreamBase.set_stream_array", "dany/stream_util.py:StreamBase.stream_array"]}
{"id": "C93", "title": "calculations do not modify existing arrays", "statement": "No constructor, getter, calculation or table method of FlowDirections and the stream classes changes an array that existed when it was called: neither its arguments nor arrays returned by earlier calls. (The builder methods are the exception, see C100.)", "quantifier": "every state and every method call", "why_tests_cant": "all states", "anchors": ["dany/flow_directions.py:FlowDirections", "dany/stream_util.py:StreamBase"]}
{"id": "C94", "title": "stream objects keep the directions of their construction", "statement": "Calls on the flow-direction object never change a stream object made earlier; a stream object made before flow_accumulation never gets an accumulation array.", "quantifier": "every sequence of calls", "why_tests_cant": "all histories", "anchors": ["dany/stream_util.py:StreamBase.__init__", "dany/flow_directions.py:FlowDirections.flow_accumulation"]}
{"id": "C95", "title": "the network does not depend on the dtype of the stream array", "statement": "get_stream_connectivity gives the same reaches, segments and tables for a stream array whatever its numpy dtype (integer, float or Boolean), as long as it marks the same cells.", "quantifier": "every grid, flow direction array and stream array, for every dtype", "why_tests_cant": "all inputs and dtypes; tests use integer arrays", "anchors": ["dany/stream_util.py:StreamBase._mf6_stream_connectivity", "dany/stream_util.py:StreamBase._mf2005_stream_connectivity"]}
{"id": "C96", "title": "NaN cells of a stream array are not stream cells", "statement": "Cells that are NaN in the stream array are not treated as stream cells, by connectivity and by stream vectors alike.", "quantifier": "every flow direction array and every float stream array with NaN entries", "why_tests_cant": "all inputs", "anchors": ["dany/stream_util.py:StreamBase.get_stream_connectivity", "dany/stream_util.py:StreamBase.create_stream_vectors"]}
{"id": "C97", "title": "routing on terrain without pits drains everything", "statement": "If every cell has a strictly lower neighbour, except terminal cells (the lowest cells and those in terminal_cells) and cells without elevation, and where a cell falls equally steeply to a terminal cell and to others, it does so to at most three cells, any two of them neighbours, then flow_directions marks no cell as sink: terminal cells and cells without elevation flow to themselves, every other cell to a strictly lower steepest neighbour, also where several are equally steep; nothing flows in circles and every path ends in a terminal cell.", "quantifier": "every grid, DEM with NaN, threshold and list of terminal cells under these conditions", "why_tests_cant": "all DEMs and tie patterns; the search over ties has unbounded depth", "anchors": ["dany/flow_directions.py:FlowDirections.flow_directions"]}
{"id": "C98", "title": "no circles after filling", "statement": "After fill_sinks (priority, eps > 0) flow_directions() without arguments never lets water run in circles.", "quantifier": "every grid and DEM", "why_tests_cant": "all DEMs; a circle needs an edge cell lower than its neighbours that is not the lowest of the grid", "anchors": ["dany/dem_conditioning.py:fill_sinks", "dany/flow_directions.py:FlowDirections.flow_directions"]}
{"id": "C99", "title": "fill, route, accumulate, delineate, number: the chain is consistent", "statement": "After fill_sinks (priority, strictly raising eps), with terminal_cells naming the outlets without lower neighbour, flow_directions returns; water from every cell runs strictly downhill to an outlet; flow_accumulation gives every cell the area draining through it, and the outlets together get the area of the grid; get_watershed_boundary gives the cells draining through a cell; streams delineated by a threshold are the cells whose upstream area reaches it, and get_stream_connectivity gives every stream cell that is not an outlet a receiver with a greater number.", "quantifier": "every connected grid, DEM, eps, choice of terminal cells and threshold under these conditions", "why_tests_cant": "all inputs; the chain of five methods has to fit together", "anchors": ["dany/dem_conditioning.py:fill_sinks", "dany/flow_directions.py:FlowDirections.flow_directions", "dany/flow_directions.py:FlowDirections.flow_accumulation", "dany/stream_util.py:StreamBase.delineate_streams", "dany/stream_util.py:StreamBase.get_stream_connectivity"]}
{"id": "C104", "title": "an interrupted write keeps the old file", "statement": "If write(f) is interrupted at any point (crash, full disk, object that cannot be pickled), read(f) returns either what it returned before or the new object. (False of the code: the file is emptied first. What holds: other files are untouched and read(f) never returns a wrong object; it returns the old one, fails, or returns the new one.)", "quantifier": "every crash point within write, every object and block size", "why_tests_cant": "all crash points", "anchors": ["dany/stream_util.py:PygsflowCompatBase.write", "dany/stream_util.py:PygsflowCompatBase.read"]}
{"id": "C102", "title": "a failed flow_directions call keeps the directions", "statement": "If flow_directions raises, flow_direction_array holds what it held before the call. (False of the code: the array is reset before the arguments are looked at, and afterwards flow_accumulation silently works on the half-set array. What holds: DEM, areas, accumulation and the table of inflowing cells are untouched, and a later call returns what it would have returned without the failure.)", "quantifier": "every object, every history of calls that returned, raised or were interrupted, every invalid list of terminal cells", "why_tests_cant": "all histories and failure points", "anchors": ["dany/flow_directions.py:FlowDirections.flow_directions", "dany/flow_directions.py:FlowDirections.flow_accumulation"]}
{"id": "C106", "title": "terminal cells as (row, column) pairs", "statement": "On a structured grid terminal_cells may be given as (row, column) pairs: the call does and returns the same as for the cell numbers row * ncol + column. Pairs outside the grid raise ValueError, numbers after a pair TypeError, pairs after a number IndexError, pairs first on another grid AssertionError.", "quantifier": "every grid, list of pairs, DEM and threshold", "why_tests_cant": "all inputs", "anchors": ["dany/flow_directions.py:FlowDirections.flow_directions"]}
{"id": "C107", "title": "an interrupt does no lasting harm", "statement": "If a call of flow_directions, flow_accumulation, get_watershed_boundary or get_subbasins is interrupted (KeyboardInterrupt), later calls give the right results. (False of the code: an interrupted first delineation leaves the table of inflowing cells half filled for ever, and every later watershed silently lacks cells. What holds: interrupting flow_accumulation, or a delineation after the table is stored, changes nothing; flow_directions repaired by calling it again.)", "quantifier": "every interrupt point and every later history of calls", "why_tests_cant": "all crash points and histories", "anchors": ["dany/flow_directions.py:FlowDirections._reverse_flow_directions", "dany/flow_directions.py:FlowDirections.get_watershed_boundary"]}
{"id": "C108", "title": "negative terminal cell numbers count from the end", "statement": "A negative number in terminal_cells names the cell counted from the end, as in a Python list. (False of the code for -1, which has no effect or even removes the outlet. For -3 to -N it holds: the same directions, except that the terminal cell may be written as the negative number.)", "quantifier": "every grid, DEM, threshold and list of terminal cells", "why_tests_cant": "all inputs", "anchors": ["dany/flow_directions.py:FlowDirections.flow_directions"]}
{"id": "C103", "title": "a failing call of a stream object is all or nothing", "statement": "If a call of Sfr6, Sfr2005 or PrmsStreams raises, the object is either as it was before or as after a whole, successful connectivity calculation; it never holds parts of two networks. So after any history of calls that returned or raised, the segment graph and the cell list belong to the same calculation, and reach_data, segment_data, packagedata and connectiondata return what they return for such a network.", "quantifier": "every history of calls with any arguments, every call that raises at any point", "why_tests_cant": "the states reachable by failing calls are too many to enumerate", "anchors": ["dany/stream_util.py: _mf6_stream_connectivity", "dany/stream_util.py: _mf2005_stream_connectivity", "dany/stream_util.py: Sfr2005.reach_data", "dany/stream_util.py: Sfr2005.segment_data", "dany/stream_util.py: Sfr6.packagedata", "dany/stream_util.py: PrmsStreams.get_cascades"]}
{"id": "C109", "title": "an interrupted stream connectivity does no lasting harm", "statement": "If a connectivity call of a stream object is interrupted (KeyboardInterrupt), later calls describe either the old or the new streams. (False of the code: the attributes are assigned one after another, and an interrupt between them makes reach_data silently list the old cells under the new segments. What holds: a later get_stream_connectivity call with the stream cells repairs the object after any history, and interrupting the first call of an Sfr6 object does no harm.)", "quantifier": "every interruption point, every state of the object, every history of other calls afterwards", "why_tests_cant": "an interrupt between two assignments cannot be timed in a test", "anchors": ["dany/stream_util.py: _mf6_stream_connectivity", "dany/stream_util.py: _mf2005_stream_connectivity"]}
{"id": "C100", "title": "the builder leaves the tables of its caller alone", "statement": "Sfr2005.get_pygsflow_builder_object does not modify the reach_data, segment_data and irunbnd passed to it. (False of the code: with apply_defaults the tables are overwritten in place, also if the call raises halfway. What holds, at every point of the call: cells, segment and reach numbers, lengths and reach IDs, numbers and outlet segments of the segments, columns without default and the irunbnd array stay; without apply_defaults nothing changes; with any keyword argument the call raises before touching anything.)", "quantifier": "all tables, all combinations of tables passed, every point at which the call can fail or be interrupted", "why_tests_cant": "needs all tables and all failure points", "anchors": ["dany/stream_util.py: Sfr2005.get_pygsflow_builder_object"]}
{"id": "C101", "title": "the builder is idempotent", "statement": "Passing the reach table, segment table and irunbnd array of a returned builder object to get_pygsflow_builder_object again returns the same tables and changes neither the tables nor the stream object.", "quantifier": "all grids, tables and ways in which the first builder object was obtained", "why_tests_cant": "ranges over all tables and elevations", "anchors": ["dany/stream_util.py: Sfr2005.get_pygsflow_builder_object"]}
{"id": "C105", "title": "stream packages carry the elevations of their own DEM", "statement": "The elevations in packagedata and reach_data of a stream object are those of the DEM of the flow object it was made from. (False of the code: each constructor of a stream object replaces the top of the shared grid, so every stream object on the grid writes the elevations of the DEM used last, while slopes in packagedata stay its own; even a constructor that raises replaces them. What holds: until the next construction an object carries the elevations and slopes its own flow object had when it was made, and without constructions the top of the grid is left alone.)", "quantifier": "every session with any number of flow and stream objects on one grid, any order of constructions and calls", "why_tests_cant": "depends on the order of all constructions in a session", "anchors": ["dany/stream_util.py: Sfr6.__init__", "dany/stream_util.py: Sfr2005.__init__", "dany/stream_util.py: PrmsStreams.__init__", "dany/stream_util.py: Sfr6.packagedata", "dany/stream_util.py: Sfr2005.reach_data"]}
{"id": "C110", "title": "Sink filling works in double precision", "statement": "With NumPy float64 elevations of at most 1e10 in absolute value, where every `newdem[c] + eps` is rounded to the nearest double, fill_sinks(method='priority', eps=2e-06), with or without a stream mask, gives every cell connected to an outlet a strictly descending path of neighbours to an outlet; no cell is lowered, edge cells keep their elevation, and 'complete' returns exactly the spill elevation, without rounding error.", "quantifier": "all grids of at most 1e14 cells with symmetric neighbour lists, all float64 DEMs with |z| <= 1e10, all stream masks", "why_tests_cant": "The statement is about every grid, every DEM and every stored number; a test fixes a few elevations, and the ones usually chosen (small whole numbers) hide where an added 2e-06 is rounded away.", "anchors": ["dany/dem_conditioning.py:fill_sinks", "dany/dem_conditioning.py:_priority_flood"]}
{"id": "C111", "title": "Sink filling of single-precision DEMs drains", "statement": "fill_sinks(method='priority') with the default eps gives every connected cell of a float32 DEM a strictly descending path to an outlet, as it does for a float64 DEM.", "quantifier": "all grids, all float32 DEMs, both promotion rules of NumPy (before and since version 2)", "why_tests_cant": "The statement is about every grid, every DEM and every stored number; a test fixes a few elevations, and the ones usually chosen (small whole numbers) hide where an added 2e-06 is rounded away. The claim is false for every DEM above 64 m: the result keeps the element type of the input and the increment is lost.", "anchors": ["dany/dem_conditioning.py:fill_sinks", "dany/dem_conditioning.py:_priority_flood"]}
{"id": "C112", "title": "The drain method ends and drains in floating point", "statement": "For float32 and float64 DEMs with elevations of at most 1e10, fill_sinks(method='drain') ends for every eps >= 0, also one that is rounded away, and with the default eps every cell left below 1e10 has a strictly descending path to the grid edge.", "quantifier": "all grids with neighbour numbers in range, all float32 and float64 DEMs with |z| <= 1e10, all eps >= 0", "why_tests_cant": "Termination of `while modified` for every eps depends on rounding: no test can run all inputs, and none would end if the claim were false.", "anchors": ["dany/dem_conditioning.py:fill_sinks", "dany/dem_conditioning.py:_flood_and_drain_fill", "dany/dem_conditioning.py:_inner_flood_and_drain_fill"]}
{"id": "C113", "title": "Fill, route and delineate in double precision", "statement": "In double precision, with every difference, square, quotient and sum rounded to the nearest float64: a non-terminal cell with a strictly lower neighbour flows to a strictly lower neighbour or holds the sink code; after fill_sinks('priority', eps=2e-06), with terminal_cells naming the outlets without lower neighbour, flow directions lead strictly downhill from every cell to an outlet and never in circles, flow_accumulation returns, and streams delineated from it by a threshold run on to an outlet.", "quantifier": "all connected grids of fewer than 1e6 cells, all float64 DEMs with |z| <= 1e10 whose values are zero or not below 2^-848, cell centres 2^-500 to 2^98 apart per coordinate, any square root accurate to 2^-52, all cell areas >= 0 and thresholds", "why_tests_cant": "A rounding error that turns a fall into a tie or a rise, or a sum that shrinks, would show on a few numbers of a few grids only; the claim is about all of them.", "anchors": ["dany/dem_conditioning.py:fill_sinks", "dany/flow_directions.py:_calculate_slopes", "dany/flow_directions.py:FlowDirections.flow_directions", "dany/flow_directions.py:FlowDirections.flow_accumulation", "dany/stream_util.py:StreamBase.delineate_streams"]}
{"id": "C114", "title": "Rounding error of the flow accumulation", "statement": "flow_accumulation in double precision returns for every array of valid indices; for a cell off the flow cycles with k upstream cells the result differs from the exact sum of the (non-negative) upstream areas by a factor of at most (1+2^-53)^(k-1), below 3e-7 on grids of up to 1e9 cells; it is exact where the areas are multiples of a power of two that sum to at most 2^53 units, in particular for as_cells=True; it never decreases downstream and is never less than the area of the cell itself.", "quantifier": "every flow direction array of cell indices, all float64 areas >= 0, every order in which the code adds", "why_tests_cant": "all grids, areas and orders of summation; a test compares a few sums with a tolerance", "anchors": ["dany/flow_directions.py:FlowDirections.flow_accumulation"]}
{"id": "C115", "title": "Streams from rounded accumulation are connected", "statement": "Streams delineated by a threshold from an accumulation in double precision never break before their outlet on a network without flow cycles; a cell whose exact upstream area is 3e-7 (relative) above the threshold is a stream cell, a cell that far below is not.", "quantifier": "every flow direction array of cell indices without cycles, all float64 areas >= 0, all thresholds", "why_tests_cant": "all networks and thresholds; a broken stream needs an unlucky rounding", "anchors": ["dany/flow_directions.py:FlowDirections.flow_accumulation", "dany/stream_util.py:StreamBase.delineate_streams"]}
{"id": "C116", "title": "The receiver is the steepest neighbour, in double precision", "statement": "In double precision the cell that a cell with a lower neighbour flows to is itself lower, and the fall to it divided by the real distance of the cell centres is at least (1 - 2^-49) times that for any lower neighbour: rounding can exchange receivers only if their true slopes agree to 14 digits.", "quantifier": "all neighbour tables, all float64 DEMs and cell centres in the range of C113, all burn thresholds and terminal cells", "why_tests_cant": "all coordinates and elevations; the error of squares, square root and quotient has to be bounded for each", "anchors": ["dany/flow_directions.py:_calculate_slopes", "dany/flow_directions.py:_calculate_flowcell"]}
{"id": "C117", "title": "Filling twice is filling once", "statement": "Without a stream mask, calling fill_sinks on its own result with the same method ('priority', 'complete' or 'drain') and eps returns that result unchanged, whatever eps >= 0 is.", "quantifier": "every grid with symmetric neighbour lists, every DEM (for 'drain' not above 1e10), every method and eps >= 0", "why_tests_cant": "the second run processes the cells in another order than the first; all orders on all grids have to agree", "anchors": ["dany/dem_conditioning.py:fill_sinks", "dany/dem_conditioning.py:_priority_flood", "dany/dem_conditioning.py:_flood_and_drain_fill"]}
{"id": "C118", "title": "A DEM that drains is left alone", "statement": "fill_sinks returns a DEM unchanged if it already drains: for 'priority' if every connected cell has a strictly descending path to the grid edge, for 'complete' a never ascending one, for 'drain' any single cell with a path falling by eps or more per step is kept. With a stream mask: if every connected cell descends to a stream cell and no stream cell with two stream neighbours lies below all of them.", "quantifier": "every grid with symmetric neighbour lists, every DEM of the described kind, every eps >= 0", "why_tests_cant": "conditioning must not touch good terrain on any grid; a sample cannot exclude a spurious rise", "anchors": ["dany/dem_conditioning.py:fill_sinks", "dany/dem_conditioning.py:_priority_flood"]}
{"id": "C119", "title": "Filling twice with a stream mask is filling once", "statement": "Calling fill_sinks on its own result with the same stream mask, method and eps returns that result unchanged.", "quantifier": "every grid with symmetric neighbour lists, every DEM, mask and eps >= 0", "why_tests_cant": "depends on the order in which pits of the stream are raised on arbitrary networks", "anchors": ["dany/dem_conditioning.py:fill_sinks", "dany/dem_conditioning.py:_priority_flood"]}
{"id": "C120", "title": "Sinks are filled independently of unit and datum", "statement": "Converting the elevations to another unit (factor a > 0, eps converted as well) and another datum (+c) before fill_sinks gives the same DEM as converting the result after it; for 'priority' and 'complete' with or without a mask for every cell, for 'drain' for every cell below its flood level of 1e10. More generally every strictly increasing conversion that commutes with the raise by eps may be exchanged with the filling.", "quantifier": "every grid, DEM, mask, method, eps >= 0, factor a > 0 and offset c (exact arithmetic)", "why_tests_cant": "two runs have to be compared for all elevations and conversions", "anchors": ["dany/dem_conditioning.py:fill_sinks", "dany/dem_conditioning.py:_priority_flood", "dany/dem_conditioning.py:_flood_and_drain_fill"]}
{"id": "C121", "title": "'complete' is the least possible filling", "statement": "Among all surfaces that are nowhere below the DEM and from which a cell drains to the grid edge without ascending, the result of fill_sinks(method='complete') is the lowest at that cell; in particular 'priority' and 'drain' never give a lower surface than 'complete'.", "quantifier": "every grid with symmetric neighbour lists, every DEM, every competing surface", "why_tests_cant": "a comparison with all possible surfaces", "anchors": ["dany/dem_conditioning.py:fill_sinks", "dany/dem_conditioning.py:_priority_flood", "dany/dem_conditioning.py:_flood_and_drain_fill"]}
{"id": "C122", "title": "Which cells are raised", "statement": "fill_sinks(method='complete') leaves a connected cell at its elevation exactly if it has a path to the grid edge on which no cell is higher than itself; 'drain' keeps every cell that has a path falling by eps or more per step; 'priority' may raise a cell with such a path, but by no more than N eps (N: number of cells).", "quantifier": "every grid with symmetric neighbour lists, every DEM, eps >= 0", "why_tests_cant": "needs the existence or absence of a path for every cell of every DEM", "anchors": ["dany/dem_conditioning.py:fill_sinks", "dany/dem_conditioning.py:_priority_flood", "dany/dem_conditioning.py:_flood_and_drain_fill"]}
{"id": "C123", "title": "What the numbering of the cells does to the filling", "statement": "Giving the cells of a grid other numbers (and listing neighbours in another order) does not change the elevation that 'complete' and 'drain' give to each cell; with 'priority' the two results can differ, but by no more than N eps.", "quantifier": "every grid, renumbering, DEM, eps >= 0", "why_tests_cant": "all permutations of all grids", "anchors": ["dany/dem_conditioning.py:fill_sinks", "dany/dem_conditioning.py:_priority_flood", "dany/dem_conditioning.py:_flood_and_drain_fill"]}
{"id": "C124", "title": "Higher ground gives a higher result", "statement": "If one DEM is nowhere below another, its filled version is nowhere below the other's for 'complete' and 'drain'; for 'priority' it is below by no more than N eps (and can be).", "quantifier": "every grid, every pair of DEMs, eps >= 0", "why_tests_cant": "pairs of runs on all DEMs", "anchors": ["dany/dem_conditioning.py:fill_sinks", "dany/dem_conditioning.py:_priority_flood", "dany/dem_conditioning.py:_flood_and_drain_fill"]}
{"id": "C125", "title": "A larger eps gives a higher result", "statement": "With a larger eps, 'drain' gives a surface that is nowhere lower; with 'priority' it is lower by no more than N times the smaller eps (and can be lower).", "quantifier": "every grid and DEM, every pair eps <= eps'", "why_tests_cant": "pairs of runs on all DEMs", "anchors": ["dany/dem_conditioning.py:fill_sinks", "dany/dem_conditioning.py:_priority_flood", "dany/dem_conditioning.py:_flood_and_drain_fill"]}
{"id": "C126", "title": "Accumulation is the size of the watershed", "statement": "The flow accumulation at a cell is the summed area (as_cells: the number) of the cells that get_watershed_boundary marks for that cell.", "quantifier": "every flow direction array of valid indices, every cell off the flow cycles, all areas", "why_tests_cant": "two independent traversals of arbitrary networks have to agree", "anchors": ["dany/flow_directions.py:FlowDirections.flow_accumulation", "dany/flow_directions.py:FlowDirections.get_watershed_boundary"]}
{"id": "C127", "title": "Watersheds are nested or disjoint", "statement": "If the watershed of a point contains another point's cell it contains that point's whole watershed; if neither contains the other's cell, they have no cell in common.", "quantifier": "every flow direction array of valid indices (cycles included), every pair of points", "why_tests_cant": "all pairs of cells of all networks", "anchors": ["dany/flow_directions.py:FlowDirections.get_watershed_boundary"]}
{"id": "C128", "title": "Flow accumulation takes linear time", "statement": "flow_accumulation moves from cell to cell at most twice as often as there are cells, on every flow direction array of valid indices, cyclic or not.", "quantifier": "every grid size, every flow direction array, every arithmetic with x + 0 = x", "why_tests_cant": "a bound for all sizes", "anchors": ["dany/flow_directions.py:FlowDirections.flow_accumulation"]}
{"id": "C129", "title": "Subbasins divide the watersheds", "statement": "A cell gets a subbasin number exactly if it lies in the watershed of one of the points, and the area of a subbasin plus the flow accumulations of the points directly upstream of its point is the flow accumulation of its point.", "quantifier": "every flow direction array of cell numbers, all points off cell 0 and off the flow cycles, all areas", "why_tests_cant": "a balance over arbitrary trees of points", "anchors": ["dany/flow_directions.py:FlowDirections.get_subbasins", "dany/flow_directions.py:FlowDirections.get_watershed_boundary", "dany/flow_directions.py:FlowDirections.flow_accumulation"]}
{"id": "C130", "title": "The drain method takes polynomially many sweeps", "statement": "fill_sinks with method 'drain' ends after at most N^2 (N+1) + 1 sweeps over the N cells, although every cell is lowered only to just above the highest of its lower neighbours; each elevation it returns is a ground elevation, or the flood level, raised by fewer than N increments.", "quantifier": "every grid of polygons, every DEM, every eps that does not lower a value (zero and increments lost to rounding included), every flood level", "why_tests_cant": "a bound on running time for every DEM; the worst cases are not known", "anchors": ["dany/dem_conditioning.py:fill_sinks", "dany/dem_conditioning.py:_flood_and_drain_fill", "dany/dem_conditioning.py:_inner_flood_and_drain_fill"]}
{"id": "C131", "title": "Lengths in packagedata", "statement": "In packagedata() the length of a reach is 1.5 times the distance between its cell's centre and that of the next stream cell; where the stream ends it is 1.5 times a value between the shortest and the longest of the polygon's sides that are measured (from each vertex to the next), their mean; it is positive unless the polygon shrinks to a point.", "quantifier": "every network, every position of cell centres, every polygon with two or more vertices, all grid types", "why_tests_cant": "real-valued geometry of every polygon", "anchors": ["dany/stream_util.py:Sfr6.packagedata"]}
{"id": "C132", "title": "Outlet reaches are 1.5 mean sides long", "statement": "The length packagedata() gives to a reach where the stream ends is 1.5 times the mean side of its cell. (False of the code: the side from the polygon's last vertex back to its first is left out, so that the length of an outlet in a cell that is not square depends on which side that is. It holds exactly if the side left out is as long as the others on average.)", "quantifier": "every network and every polygon", "why_tests_cant": "the error is invisible on square cells, the only ones tested", "anchors": ["dany/stream_util.py:Sfr6.packagedata"]}
{"id": "C133", "title": "packagedata(detuple=True) is the same table", "statement": "packagedata(detuple=True) returns the table of packagedata() with the cellid column replaced by k, i, j (or k, node, or node) and every other column unchanged; row and column name the reach's cell; row i holds reach i+1. It raises IndexError exactly for a network without reaches, where packagedata() returns an empty table.", "quantifier": "every stream object, every argument, all grid types and sizes", "why_tests_cant": "all networks and grid types", "anchors": ["dany/stream_util.py:Sfr6.packagedata", "dany/stream_util.py:Sfr6._detuple"]}
{"id": "C134", "title": "Flow directions do not depend on datum and units", "statement": "Elevations in another unit and above another datum (with the threshold in the same unit), and coordinates in another unit, translated, rotated or reflected, give the same flow_directions(): the same array or the same exception, ties included, as long as elevations and slopes stay below 1e10.", "quantifier": "every DEM (NaN included), all positive unit factors, every datum, every similarity of the plane, all terminal cells; exact arithmetic", "why_tests_cant": "an identity between two runs for all DEMs", "anchors": ["dany/flow_directions.py:FlowDirections.flow_directions", "dany/flow_directions.py:FlowDirections._calculate_slopes", "dany/flow_directions.py:FlowDirections._calculate_flowcell"]}
{"id": "C135", "title": "Flow directions do not depend on the numbering", "statement": "If no cell has two equally steep steepest neighbours, flow_directions() gives the same flow from cell to cell whatever the numbers of the cells and the order of the neighbour lists: terminal cells and cells without elevation keep the water, every other cell passes it to its steepest neighbour. (With ties the order of the neighbours matters: C135_ties.)", "quantifier": "every DEM without ties, every permutation of the cells, every order of the neighbour lists, any rounding", "why_tests_cant": "all permutations of all grids", "anchors": ["dany/flow_directions.py:FlowDirections.flow_directions", "dany/flow_directions.py:FlowDirections._calculate_slopes", "dany/flow_directions.py:FlowDirections._calculate_flowcell"]}
{"id": "C136", "title": "Flow accumulation is linear in the areas", "statement": "The accumulation of a sum of areas is the sum of the accumulations, a factor carries over, larger areas accumulate to no less (also with rounding), and with unit areas it is the number of cells.", "quantifier": "every flow direction array, circles and sinks included, all areas", "why_tests_cant": "algebraic identities between runs on all inputs", "anchors": ["dany/flow_directions.py:FlowDirections.flow_accumulation"]}
{"id": "C137", "title": "Gap filling in double precision", "statement": "In double precision median, min and max fill every gap with an elevation between two elevations of the input. The mean may leave the range of the input, but only by rounding errors: at most D+1 relative errors of 2^-53 per gap if no cell has more than D neighbours; on a rectangular grid with up to a million gaps less than 1e-8 of the greatest absolute elevation. (It does leave it: the gap between three cells of 0.1 becomes 0.10000000000000002, so that a filled cell can be higher than all cells of the DEM.)", "quantifier": "every neighbour table, every DEM of doubles, any number of gaps, any order of NumPy's additions", "why_tests_cant": "all DEMs and all roundings", "anchors": ["dany/dem_conditioning.py:fill_nan_values"]}
{"id": "C138", "title": "The queue of CPython's heapq gives the same fill", "statement": "Run with the array heap of CPython's heapq, sifting step by sifting step, fill_sinks returns exactly the elevations obtained when every pop takes the least (elevation, node) tuple of a bag, for every DEM without NaN; so all other sink filling properties hold of the code with its own queue.", "quantifier": "every grid, every DEM without NaN, every eps, mask, method", "why_tests_cant": "all sequences of pushes and pops", "anchors": ["dany/dem_conditioning.py:fill_sinks", "dany/dem_conditioning.py:_priority_flood"]}
{"id": "C139", "title": "Flooding keeps nodata cells", "statement": "'priority' and 'complete' return an elevation exactly where the DEM has one and never lower an elevation. Without a mask, cells on the grid edge keep their value; so do cells not connected with an outlet.", "quantifier": "every grid, every DEM with nodata (NaN) cells anywhere, every eps >= 0, with or without a stream mask", "why_tests_cant": "all DEMs and NaN patterns", "anchors": ["dany/dem_conditioning.py:fill_sinks", "dany/dem_conditioning.py:_priority_flood"]}
{"id": "C140", "title": "Flooding terminates on DEMs with nodata", "statement": "'priority' and 'complete' finish on every DEM, nodata cells or not, within N+1 tests of the loop condition, and raise no exception.", "quantifier": "every grid, every DEM with nodata (NaN) cells anywhere, every eps >= 0, with or without a stream mask", "why_tests_cant": "NaN breaks the order of the heap; all patterns", "anchors": ["dany/dem_conditioning.py:fill_sinks", "dany/dem_conditioning.py:_priority_flood"]}
{"id": "C141", "title": "Drainage of a filled DEM with nodata", "statement": "After 'priority' every cell with an elevation that is connected with an outlet has a strictly descending path, over cells with elevations, to an outlet or to a cell beside a nodata cell; after 'complete' a never ascending one.", "quantifier": "every grid, every DEM with nodata (NaN) cells anywhere, every eps >= 0, with or without a stream mask", "why_tests_cant": "all DEMs and NaN patterns", "anchors": ["dany/dem_conditioning.py:fill_sinks", "dany/dem_conditioning.py:_priority_flood"]}
{"id": "C142", "title": "'complete' fills to the spill elevation also with nodata", "statement": "With nodata cells in the DEM, 'complete' fills each connected cell exactly to its spill elevation, i.e. no more than needed for water to reach the grid edge or a nodata cell.", "quantifier": "every grid, every DEM with nodata (NaN) cells anywhere, every eps >= 0, with or without a stream mask", "why_tests_cant": "all DEMs and NaN patterns; depends on how NaN upsets the heap order", "anchors": ["dany/dem_conditioning.py:fill_sinks", "dany/dem_conditioning.py:_priority_flood"]}
{"id": "C143", "title": "'drain' treats nodata cells as walls", "statement": "'drain' on a DEM with nodata cells runs as on the DEM with all nodata cells at 1e10. Every other cell gets the lowest surface rising by eps or more per step along some path from the grid edge over cells with elevations, or 1e10; a cell that ends below 1e10 has a strictly descending path to the edge over cells with elevations; the iteration ends.", "quantifier": "every grid, every DEM with elevations up to 1e10 and nodata cells anywhere, every eps", "why_tests_cant": "all DEMs, NaN patterns and numbers of sweeps", "anchors": ["dany/dem_conditioning.py:fill_sinks", "dany/dem_conditioning.py:_flood_and_drain_fill", "dany/dem_conditioning.py:_inner_flood_and_drain_fill"]}
{"id": "C144", "title": "'drain' keeps nodata cells", "statement": "A cell without elevation (NaN) has no elevation after fill_sinks(method='drain').", "quantifier": "every grid, every DEM with nodata cells, every eps", "why_tests_cant": "all DEMs and NaN patterns", "anchors": ["dany/dem_conditioning.py:fill_sinks", "dany/dem_conditioning.py:_flood_and_drain_fill", "dany/dem_conditioning.py:_inner_flood_and_drain_fill"]}
{"id": "C145", "title": "Stream cells beside nodata stream cells are left alone", "statement": "With a stream mask, a stream cell that touches a stream cell without elevation keeps its elevation, however far below the stream it lies.", "quantifier": "every grid, DEM, mask, eps >= 0, 'priority' and 'complete'", "why_tests_cant": "all DEMs, NaN patterns and orders of the queue", "anchors": ["dany/dem_conditioning.py:_priority_flood"]}
{"id": "C146", "title": "slope agrees with flow_directions", "statement": "Where flow_directions sends a cell to another cell that lies lower by 1e-6 or more, slope is the steepest descent from that cell to any of its neighbours; where it lies lower by less, slope is 0; where it does not lie lower, slope is not positive and the cell has no lower neighbour.", "quantifier": "every grid, DEM (with nodata), burn threshold, terminal cells; exact arithmetic and double precision", "why_tests_cant": "all DEMs and neighbour orders; two methods with two different thresholds", "anchors": ["dany/flow_directions.py:FlowDirections.slope", "dany/flow_directions.py:FlowDirections.flow_directions"]}
{"id": "C147", "title": "aspect in double precision", "statement": "In double precision aspect lies in [0, 360]; it is 360.0 instead of 0.0 exactly where the computed angle is negative but not below -2^-45 degrees, as for two cells in one row whose computed centres differ by one rounding error.", "quantifier": "every flow direction array and cell centres; every arctan2 with values in [-pi, pi]", "why_tests_cant": "all roundings", "anchors": ["dany/flow_directions.py:FlowDirections.aspect"]}
{"id": "C148", "title": "cascades only lead downhill", "statement": "After fill_sinks with method 'priority' and flow_directions (conditions of C99), every link of get_cascades, many-to-one or many-to-many, with any stream array and any boundary, goes from a cell to itself or to a strictly lower cell, so that water never runs in circles along the cascades; a landscape cell inside the boundary whose receiver is inside the boundary and does not drain to cell 0 passes on all its water, in positive fractions that sum to 1.", "quantifier": "every grid, DEM, flow directions, stream array, boundary, and both kinds of cascades", "why_tests_cant": "all grids and elevations; circles can be of any length", "anchors": ["dany/stream_util.py:PrmsStreams.get_cascades", "dany/stream_util.py:PrmsStreams._build_many_to_many_cascades", "dany/stream_util.py:PrmsStreams._build_many_to_one_cascades", "dany/flow_directions.py:FlowDirections._calculate_slopes"]}
{"id": "C149", "title": "reach tops fall along every MODFLOW 6 connection", "statement": "After fill_sinks with method 'priority' and flow_directions (conditions of C99), packagedata and connectiondata of any stream array agree: gradients are not negative and lengths positive; along every connection to a downstream reach (negative entry) the reach number grows, rtp falls strictly, and rgrd * rlen is that fall, or rgrd is 0 if the fall is less than 1e-6.", "quantifier": "every grid, DEM, stream array and connection", "why_tests_cant": "all networks of any size", "anchors": ["dany/stream_util.py:Sfr6.packagedata", "dany/stream_util.py:Sfr6.connectiondata", "dany/flow_directions.py:FlowDirections.slope"]}
{"id": "C150", "title": "reach tops of reach_data fall along the stream", "statement": "On a stream whose cells lie strictly lower than the ones before, strtop in the table reach_data returns falls strictly from each reach to the one its cell flows to. (False of the code: FloPy's columns are single precision, so that at an elevation of 100 the default eps of fill_sinks, 2e-6, is lost; strtop never rises, and falls if two single-precision numbers lie between the elevations.)", "quantifier": "every grid, DEM, network and reach", "why_tests_cant": "all elevations and networks; depends on rounding", "anchors": ["dany/stream_util.py:Sfr2005.reach_data"]}
{"id": "C151", "title": "methods called too early raise and change nothing", "statement": "A FlowDirections object whose flow_directions has not been called raises on flow_accumulation, get_watershed_boundary and get_subbasins; a stream object without a stream array raises AssertionError on every method that is not given one. No such call, in any number and order, interrupted or not, changes the object.", "quantifier": "all objects, all calls, all histories of such calls with any interruption points", "why_tests_cant": "the orders in which an API can be misused, and the points at which a call can be interrupted, are unbounded; a test tries one wrong call", "anchors": ["dany/flow_directions.py:FlowDirections", "dany/stream_util.py:StreamBase", "dany/stream_util.py:Sfr6", "dany/stream_util.py:Sfr2005", "dany/stream_util.py:PrmsStreams"]}
{"id": "C152", "title": "sessions with one FlowDirections object", "statement": "Calls of flow_directions and flow_accumulation in any order, returned, raised or interrupted anywhere; then a flow_directions call that returns; then flow_accumulation, get_watershed_boundary and get_subbasins in any number and order, returned or raised: whatever is asked after that is answered from the directions of that one call (upstream sums, upstream set, subbasin labels).", "quantifier": "all objects without a stored reversed table, all such histories, all pour points", "why_tests_cant": "the number of histories and interruption points is unbounded; a stale or half-built table only shows in particular orders of calls", "anchors": ["dany/flow_directions.py:FlowDirections.flow_directions", "dany/flow_directions.py:FlowDirections.flow_accumulation", "dany/flow_directions.py:FlowDirections.get_watershed_boundary", "dany/flow_directions.py:FlowDirections.get_subbasins", "dany/flow_directions.py:FlowDirections._reverse_flow_directions"]}
{"id": "C153", "title": "methods of a stream object agree in every state", "statement": "Whatever calls a stream object has seen before, get_stream_connectivity, get_cascades and the builder object of PrmsStreams, irunbnd and create_stream_vectors return exactly what the calculation on its stored attributes (directions, stream array, graph, segment graph) gives, and store exactly what it says; nothing else in the history matters.", "quantifier": "all states of an object, all arguments, structured and unstructured grids", "why_tests_cant": "the states an object can be in after any history are unbounded; hidden state shows only in particular orders of calls", "anchors": ["dany/stream_util.py:PrmsStreams.get_stream_connectivity", "dany/stream_util.py:PrmsStreams.get_cascades", "dany/stream_util.py:PrmsStreams.get_pygsflow_builder_object", "dany/stream_util.py:Sfr2005.irunbnd", "dany/stream_util.py:StreamBase.create_stream_vectors"]}
{"id": "C154", "title": "networks through control points are continuous", "statement": "A network delineated with the threshold array of threshold_from_control_points is connected downstream: every cell into which a stream cell flows is a stream cell, down to the outlet.", "quantifier": "all grids, flow directions without cycles, non-negative areas, thresholds and lists of control points", "why_tests_cant": "whether a break appears depends on how the stems, the threshold and the accumulated areas interact on the whole grid; false of the code, the theorem says exactly at which control points the network is broken", "anchors": ["dany/stream_util.py:StreamBase.threshold_from_control_points", "dany/stream_util.py:StreamBase.delineate_streams", "dany/flow_directions.py:FlowDirections.flow_accumulation"]}
{"id": "C155", "title": "control points select their stems only", "statement": "With threshold_from_control_points and its default threshold, delineate_streams marks the cells on the main stems of the control points and no others.", "quantifier": "all grids, accumulated areas and lists of control points", "why_tests_cant": "ranges over all grids and lists of points; false of the code: with the default threshold 0 every cell becomes a stream cell; proved for thresholds above every accumulated area", "anchors": ["dany/stream_util.py:StreamBase.threshold_from_control_points", "dany/stream_util.py:StreamBase.delineate_streams"]}
{"id": "C156", "title": "many-to-many cascade fractions in floating point", "statement": "In double precision, with NumPy's sum in any association, every active land cell of a many-to-many cascade with a lower neighbour has at least one link; its fractions are float64 numbers between 0.0098 and 1, a single link has fraction exactly 1, and the fractions of k links add up to 1 within (k+1)/2^53.", "quantifier": "all grids with fewer than 100 candidate neighbours per cell, all float64 slopes, all orders of summation", "why_tests_cant": "rounding errors and the 0.01 cut-off interact; a test samples a few slopes, the bound must hold for all of them", "anchors": ["dany/stream_util.py:PrmsStreams.get_cascades"]}
{"id": "C157", "title": "number of segments of a network", "statement": "A stream network has at most two segments per headwater, less one for every stream cell from which the stream leaves the marked cells; so get_stream_connectivity never hits Python's recursion limit of 1000 on networks with at most 499 headwaters, however long their streams are.", "quantifier": "all directions and stream arrays", "why_tests_cant": "a counting argument over all networks; a test counts segments of one network", "anchors": ["dany/stream_util.py:Sfr2005.get_stream_connectivity"]}
{"id": "C158", "title": "MODFLOW-2005 connectivity can be recomputed", "statement": "Calling get_stream_connectivity again, with the same or the other value of group_segments, does what it would have done as the first call: the stored array then holds segment numbers instead of ones, but the next call finds the same cells, graph, segments and table.", "quantifier": "all directions, stream arrays, both values of group_segments in both calls, all recursion limits", "why_tests_cant": "what the second call sees is the output of the first on an arbitrary network; false of the code for streams without headwater or confluence, which the grouped call erases; proved for networks in which every stream cell lies below a headwater, and for group_segments=False", "anchors": ["dany/stream_util.py:StreamBase._mf2005_stream_connectivity", "dany/stream_util.py:Sfr2005.get_stream_connectivity", "dany/stream_util.py:PrmsStreams.get_stream_connectivity"]}
{"id": "C159", "title": "how long flow_directions can take", "statement": "While flow_directions treats one cell, each of its loops (the test whether equally steep neighbours are connected, the search across a flat, the walk back) goes round at most (N+1)w+2N+3 times on a grid of N cells with at most w neighbours each, whatever the elevations; and the outer `while True` of the search makes at most two passes.", "quantifier": "all grids, elevations, thresholds, terminal lists on which the call is defined", "why_tests_cant": "the number of rounds of unbounded loops over every landscape, in particular over flats of any size and shape", "anchors": ["dany/flow_directions.py:flow_directions", "dany/flow_directions.py:_resolve_flats"]}
{"id": "C160", "title": "structured grids of every size", "statement": "On every structured grid of 2 to 999999 cells, with any positive column widths and row heights, any offset and rotation: the queen neighbours of a cell are the cells whose row and column differ by at most one; fill_sinks returns, and from every cell of its result a path leads strictly downhill to the first or last row or column; flow_directions returns whatever the elevations; with the edge cells without lower neighbour named terminal (and where a cell falls equally steeply to one of them and to others, it does so to at most three cells, any two of them neighbours), water runs strictly downhill from every cell into one of them, and flow_accumulation collects there the width times the height of the grid.", "quantifier": "all numbers of rows and columns, all cell sizes, offsets, rotations, elevations of relief below 1e10 cell widths, all eps > 0", "why_tests_cant": "whether the conditions of the general theorems are met by a grid depends on its size and shape; tests look at a few sizes", "anchors": ["dany/dem_conditioning.py:fill_sinks", "dany/dem_conditioning.py:_identify_edge_nodes", "dany/flow_directions.py:flow_directions", "dany/flow_directions.py:flow_accumulation"]}
{"id": "C161", "title": "gaps in the DEM of a structured grid", "statement": "On a structured grid of at least two cells, fill_nan_values returns exactly if one of the up to four cells in the last two rows and columns holds a number; otherwise it runs for ever, however many numbers the rest of the grid holds. When it returns it keeps every number and fills every gap with values within their range, and the rest of the chain (fill_sinks, flow_directions) goes through as in C160: water runs strictly downhill from every cell, gap or not, to the edge.", "quantifier": "all numbers of rows and columns, all patterns of gaps, all four methods, all elevations of relief below 1e10 cell widths", "why_tests_cant": "whether the loop ends depends on the pattern of gaps; a test that hangs cannot show that it never ends", "anchors": ["dany/dem_conditioning.py:fill_nan_values", "dany/dem_conditioning.py:fill_sinks", "dany/flow_directions.py:flow_directions"]}
{"id": "C162", "title": "structured grids in double precision", "statement": "C160 with float64 numbers throughout: on every structured grid of 2 to 999999 cells, whose computed centres are float64 numbers within a tenth of a cell width of the true ones, and for every float64 DEM with elevations up to 9e9 and a relief of at most 2e9 cell widths, fill_sinks with the default eps returns, lowers nothing and raises nothing more than 24 above the highest cell; flow_directions returns; and with the edge cells without lower neighbour named terminal (where a cell falls equally steeply to one of them and to others, it does so to at most three cells, any two of them neighbours) water runs strictly downhill from every cell to the edge.", "quantifier": "all numbers of rows and columns, cell sizes, offsets, rotations, float64 elevations, ways of rounding centres", "why_tests_cant": "rounding errors depend on the sizes of coordinates and elevations; tests sample a few", "anchors": ["dany/dem_conditioning.py:fill_sinks", "dany/flow_directions.py:flow_directions", "dany/flow_directions.py:_calculate_slopes"]}
{"id": "C163", "title": "a grid object's earlier uses do not change a call's neighbours", "statement": "fill_sinks, fill_nan_values and FlowDirections give, for the same arguments, the same result whatever dany calls were made before on the same modelgrid object: they always work with queen neighbours. (False of the code: FloPy keeps the first table it computes, and only the 'drain' fill asks for a new one; making a stream object on a fresh grid stores side neighbours, which all later calls then use. Proved: exactly which table is held after any history, that the property holds when the first call is not the making of a stream object or after a 'drain' fill, and what survives of the filling guarantees otherwise.)", "quantifier": "all grids, all finite sequences of fill_sinks, fill_nan_values, FlowDirections(...) and stream-class constructions, all their arguments", "why_tests_cant": "depends on the order of calls in a session; unit tests build a new grid per test", "anchors": ["dany/dem_conditioning.py:fill_sinks", "dany/dem_conditioning.py:_priority_flood", "dany/dem_conditioning.py:_flood_and_drain_fill", "dany/dem_conditioning.py:fill_nan_values", "dany/flow_directions.py:FlowDirections.__init__", "dany/stream_util.py:StreamBase.__init__"]}
{"id": "C164", "title": "PRMS cascades and the SFR package agree on segments", "statement": "A PrmsStreams and an Sfr2005 object made from the same flow directions and given the same stream array return builder objects (group_segments=True, the default of both) that fit together: the segment a cascade link drains to is the one under which the SFR reach table lists the receiving cell, links into cells off the stream name no segment, the numbers of segments are equal, and, if every stream cell lies downstream of a headwater, so are the numbers of reaches, and every link into a stream cell finds its cell once in the reach table and its segment in the segment table.", "quantifier": "all grids of legal flow directions, stream arrays, boundaries, kinds of cascades, apply_defaults on or off", "why_tests_cant": "two independent objects number the network; agreement must hold for every network", "anchors": ["dany/stream_util.py:PrmsStreams.get_pygsflow_builder_object", "dany/stream_util.py:Sfr2005.get_pygsflow_builder_object", "dany/stream_util.py:_mf2005_stream_connectivity"]}
{"id": "C165", "title": "outlet segments have outseg 0", "statement": "In segment_data the segment in which a river ends has outseg 0; no segment flows to itself. (False of the code with grouped segments: a stream cell that flows to itself, as outlets do in the directions of flow_directions, counts itself as an inflow; it becomes a segment of its own whose outseg is that segment. Proved: outseg is 0 exactly if the last cell of the segment leaves the stream, the segment itself exactly if its last cell flows to its first; true without grouping or if no stream cell flows to itself.)", "quantifier": "all flow directions, stream arrays, both values of group_segments", "why_tests_cant": "depends on every possible network and on how its outlets are coded", "anchors": ["dany/stream_util.py:Sfr2005.segment_data", "dany/stream_util.py:_mf2005_stream_connectivity"]}
{"id": "C166", "title": "PRMS and SFR agree without grouped segments", "statement": "With group_segments=False in both builder calls, the segment a PRMS cascade drains to is the one under which the Sfr2005 reach table lists the receiving cell. (False of the code: PRMS then numbers the cells with the MODFLOW 6 routine, Sfr2005 with the MODFLOW-2005 one, and they treat outlets that flow to themselves differently. Proved: the two numberings are equal exactly if the stream cell of lowest number drains into every stream cell that flows to itself; then the tables also match in size and every cascade into a stream cell finds its row and segment.)", "quantifier": "all legal flow directions, stream arrays, recursion limits, kinds of cascades", "why_tests_cant": "two different numbering algorithms must agree on every network", "anchors": ["dany/stream_util.py:StreamBase._mf6_stream_connectivity", "dany/stream_util.py:StreamBase._mf2005_stream_connectivity", "dany/stream_util.py:Topology.sort", "dany/stream_util.py:PrmsStreams.get_pygsflow_builder_object"]}
{"id": "C167", "title": "get_cascades and reach_data use the same segment numbers", "statement": "PrmsStreams.get_cascades and Sfr2005.reach_data, called on new objects with the same flow directions and stream array and default arguments, use the same segment numbers for the same cells. (False of the code: the default of group_segments is False in the first and True in the second. Proved: true if both are called with group_segments=True, and with False under the criterion of C166.)", "quantifier": "all legal flow directions, stream arrays, kinds of cascades, both keywords", "why_tests_cant": "depends on every possible network", "anchors": ["dany/stream_util.py:PrmsStreams.get_cascades", "dany/stream_util.py:Sfr2005.reach_data"]}
{"id": "C168", "title": "The two halves of a GSFLOW model are built and fit together", "statement": "From any DEM on a structured grid: fill sinks, name the edge cells without lower neighbour as terminal cells, route, accumulate, delineate by any threshold; then PrmsStreams.get_pygsflow_builder_object and Sfr2005.get_pygsflow_builder_object both return, with the same number of segments and, if every outlet on a stream has a tributary on the stream, the same number of reaches, and every cascade into a stream cell names a segment and cell listed once in the SFR table; cascades into land cells name segment 0. Conditions: the recursion limit exceeds the number of segments, and some stream cell flows to another cell (otherwise the Sfr2005 builder raises IndexError).", "quantifier": "all DEMs, grid sizes, spacings, rotations, thresholds, recursion limits, active arrays, kinds of cascades", "why_tests_cant": "the failure of either builder at the end of the chain depends on the whole network", "anchors": ["dany/stream_util.py:PrmsStreams.get_pygsflow_builder_object", "dany/stream_util.py:Sfr2005.get_pygsflow_builder_object", "dany/stream_util.py:StreamBase.delineate_streams"]}
{"id": "C169", "title": "Runoff is sent to the cell's own river", "statement": "After the chain of C168 the runoff target irunbnd of every cell and the segment of every cascade belong to the river the cell drains to. (False of the code: an outlet that is the only stream cell of its river is on no segment and keeps the value 1 in the stream array, which is then renumbered as if it were segment 1; it and all cells draining to it are given the segment that begins at the lowest-numbered headwater of the grid, a different river, although the SFR table does not list that outlet. Proved: exactly that value; and the property holds if every outlet on the stream has a tributary on the stream.)", "quantifier": "all legal acyclic flow directions, areas, thresholds, recursion limits", "why_tests_cant": "depends on every possible network and threshold", "anchors": ["dany/stream_util.py:StreamBase._mf2005_stream_connectivity", "dany/stream_util.py:Sfr2005.get_pygsflow_builder_object", "dany/stream_util.py:PrmsStreams.get_cascades"]}
{"id": "C170", "title": "Cascades carry all the water to the outlets", "statement": "Take the arrays of get_cascades at their word: a row passes the fraction hru_pct_up of the water of hru_up_id on to hru_down_id. Then, after filling and routing, the water every cell gets is determined, and all the rain arrives at the outlets of the grid. (False of the code. many2many: landscape cells all of whose lower neighbours flow into cell 0 get no row and their water is lost; proved otherwise, with an exact account of where the water stays for every boundary and stream array. many-to-one: rows are repeated once per cell flowing to the same cell, so that, whenever it rains on a cell that flows to another, more water arrives at the outlets than has fallen; proved: the exact amounts, and that without repeated rows the table carries exactly what flow_accumulation gives.)", "quantifier": "all downhill flow directions, stream arrays, boundaries, amounts of rain", "why_tests_cant": "a conservation law over all networks and all sums of fractions", "anchors": ["dany/stream_util.py:PrmsStreams.get_cascades", "dany/stream_util.py:PrmsStreams._build_many_to_many_cascades", "dany/stream_util.py:PrmsStreams._build_many_to_one_cascades", "dany/flow_directions.py:FlowDirections.flow_accumulation"]}
{"id": "C171", "title": "Subbasins do not depend on the order of the pour points", "statement": "get_subbasins gives the same array, numbers included, for two lists of pour points that lie in the same cells, in whatever order they are listed and however often one of them is repeated - or neither call returns. For legal directions and pour points off flow cycles also the exception, if any, is the same.", "quantifier": "all flow directions, all lists of pour points and all reorderings and repetitions, every recursion limit", "why_tests_cant": "ranges over every permutation and repetition of every list of points on every network", "anchors": ["dany/flow_directions.py:FlowDirections.get_subbasins", "dany/stream_util.py:Topology.sort"]}
{"id": "C172", "title": "More pour points only divide subbasins", "statement": "Adding pour points refines the delineation of get_subbasins: cells in the same subbasin of the larger set of points are in the same subbasin (or both in none) of the smaller set, and a subbasin in which no point was added stays as it was, cell by cell.", "quantifier": "all legal flow directions, all pairs of nested sets of pour points off cycles and not in cell 0", "why_tests_cant": "relates the results of two calls for every network and every pair of nested point sets", "anchors": ["dany/flow_directions.py:FlowDirections.get_subbasins", "dany/stream_util.py:Topology.sort"]}
{"id": "C173", "title": "burn_threshold only matters in pits and flats", "statement": "flow_directions(burn_threshold=...) looks at the threshold only at cells without a strictly lower neighbour: elsewhere the steepest neighbours are the same for every value. If every cell with an elevation has a strictly lower neighbour or is terminal, as after fill_sinks, and where a cell falls equally steeply to a terminal cell and to others, it does so to at most three cells, any two of them neighbours, the whole result - array or exception - is the same for every threshold. (With other ties it need not be, shown on nine cells.) On any DEM a threshold at most as large as every rise between neighbours, in particular a negative one, acts like zero.", "quantifier": "all DEMs with holes, all grids, terminal cells, all pairs of thresholds, any sound arithmetic", "why_tests_cant": "compares two runs of a search with ties for every DEM and every pair of thresholds", "anchors": ["dany/flow_directions.py:FlowDirections.flow_directions", "dany/flow_directions.py:FlowDirections._calculate_slopes", "dany/flow_directions.py:FlowDirections._calculate_flowcell"]}
{"id": "C174", "title": "Errors of the DEM are not magnified by filling", "statement": "If two DEMs of the same grid differ by at most delta in every cell, the results of fill_sinks differ by at most delta in every cell with method 'complete', by at most delta with 'drain' (if both surfaces lie below 1e10), and by at most delta + N*eps with 'priority' on a grid of N cells. (The eps term is needed: an error of 1/8 can change a value by 2 when eps is 2.)", "quantifier": "all grids, all pairs of DEMs, all delta, eps >= 0", "why_tests_cant": "a bound over all perturbations of all DEMs", "anchors": ["dany/dem_conditioning.py:fill_sinks", "dany/dem_conditioning.py:_priority_flood", "dany/dem_conditioning.py:_flood_and_drain_fill"]}
{"id": "C175", "title": "One pour point gives one watershed", "statement": "get_subbasins with points in one cell (not cell number 0, see C39) returns the array get_watershed_boundary returns for it: 1 upstream of the cell, 0 elsewhere.", "quantifier": "all flow directions, all cells off closed flow paths, any repetition of the point", "why_tests_cant": "compares two searches for every flow-direction array", "anchors": ["dany/flow_directions.py:FlowDirections.get_subbasins", "dany/flow_directions.py:FlowDirections.get_watershed_boundary"]}
{"id": "C176", "title": "Re-routing one cell moves exactly its accumulated area", "statement": "If the flow directions are changed in one cell only, the area (or number of cells) accumulated in it stays the same; it is taken off every cell on its old flow path and added to every cell on its new one, and every other cell keeps its value.", "quantifier": "all flow directions, all areas, all cells and new directions (cells off closed flow paths before and after)", "why_tests_cant": "relates two runs for every network and every change", "anchors": ["dany/flow_directions.py:FlowDirections.flow_accumulation"]}
{"id": "C177", "title": "MODFLOW 6 and MODFLOW-2005 describe the same river network", "statement": "Both kinds of stream packages built from the same flow directions and the same stream array number the same cells, if every stream cell lies below a headwater; two cells of the segment table are linked in the MODFLOW 6 reach graph exactly if the segment table lets the water of one enter the other, as next reach of the segment or first reach of its outseg; and a cell leads out of one exactly if it leads out of the other.", "quantifier": "all stream arrays, all flow directions", "why_tests_cant": "compares two numberings of every network", "anchors": ["dany/stream_util.py:StreamBase._mf6_stream_connectivity", "dany/stream_util.py:StreamBase._mf2005_stream_connectivity"]}
{"id": "C178", "title": "The units and the coordinate system do not matter", "statement": "Let all coordinates be given in other units and in a system that is turned, mirrored or moved, and all elevations in other units above another datum. Then cell areas, slopes, flow lengths and aspects change as lengths, gradients and angles do (slopes if no elevation difference is on the other side of the fixed 1e-6 cut-off before and after, which can really change them), fill_sinks with 'complete' or 'priority' (eps converted) gives the converted surface, and from it the same flow directions and, for the converted threshold, the same streams are found.", "quantifier": "all similarities of the plane, all positive factors for elevations, all data, all grids", "why_tests_cant": "relates two runs for every grid and every change of units", "anchors": ["dany/flow_directions.py:FlowDirections.flow_directions", "dany/dem_conditioning.py:fill_sinks", "dany/stream_util.py:StreamBase.delineate_streams"]}
{"id": "C179", "title": "Stream tables in other units", "statement": "If coordinates, cell sizes and elevations are given in other units (and a turned, mirrored or moved system), the MODFLOW 6 packagedata and the MODFLOW-2005 reach_data have the same reaches, cells and connections, with lengths, elevations and gradients converted; only the constant 0.0001 of MODFLOW-2005 reaches without a next cell does not change. If one run ends with an exception, so does the other, with the same.", "quantifier": "all stream arrays, all similarities of the plane, all positive factors for elevations", "why_tests_cant": "relates two runs for every grid and every change of units", "anchors": ["dany/stream_util.py:Sfr6.packagedata", "dany/stream_util.py:Sfr2005.reach_data"]}
{"id": "C180", "title": "Gap filling is stable", "statement": "For a fixed set of gaps and every method of fill_nan_values: elevations in other units above another datum give the result in these units (or the same exception or endless loop); a DEM that is nowhere lower gives a result that is nowhere lower; DEMs that differ by at most delta give results that differ by at most delta, also after fill_sinks with 'complete'.", "quantifier": "all DEMs with the same gaps, all neighbour tables, all methods, all positive factors, offsets and deltas", "why_tests_cant": "relates two runs for every pair of DEMs", "anchors": ["dany/dem_conditioning.py:fill_nan_values", "dany/dem_conditioning.py:fill_sinks"]}
{"id": "C181", "title": "PRMS cascades do not depend on the units", "statement": "If coordinates, elevations and burn_threshold are given in other units (and a turned, mirrored or moved system), get_cascades returns the same links with the same fractions, and the builder object has the same cascades and counts, with areas, slopes (up to the 1e-6 cut-off, see C178) and aspects converted.", "quantifier": "all stream arrays, basins, similarities of the plane and positive factors for elevations, both kinds of cascades", "why_tests_cant": "relates two runs for every grid and every change of units", "anchors": ["dany/stream_util.py:PrmsStreams.get_cascades", "dany/stream_util.py:PrmsStreams.get_pygsflow_builder_object"]}
{"id": "C182", "title": "Streams delineated inside one watershed are one river", "statement": "With the watershed of an outlet as basin_boundary, delineate_streams marks the cells that drain through the outlet and whose area reaches the threshold, and these form one river: the water of every stream cell runs along stream cells to the outlet. In the MODFLOW 6 connectivity only the outlet's reach has no downstream reach, and in the MODFLOW-2005 one only the outlet's segment flows nowhere else, and every other reach or segment comes to it.", "quantifier": "all loop-free flow directions, outlets, areas and thresholds", "why_tests_cant": "must hold for every flow field and every outlet", "anchors": ["dany/flow_directions.py:FlowDirections.get_watershed_boundary", "dany/stream_util.py:StreamBase.delineate_streams", "dany/stream_util.py:StreamBase._mf6_stream_connectivity", "dany/stream_util.py:StreamBase._mf2005_stream_connectivity"]}
{"id": "C183", "title": "A higher threshold prunes the network", "statement": "Streams delineated with a higher threshold from the same areas are those of the lower one cut back from their sources: no stream cell is new, a stream that flowed on still flows on, links between the reaches that are left stay, no cell becomes a confluence, there are no more segments than before, and segments only merge: two cells that were in one segment and are still streams are in one segment.", "quantifier": "all loop-free flow directions, areas and pairs of thresholds", "why_tests_cant": "relates two runs for every flow field and pair of thresholds", "anchors": ["dany/stream_util.py:StreamBase.delineate_streams", "dany/stream_util.py:StreamBase._mf6_stream_connectivity", "dany/stream_util.py:StreamBase._mf2005_stream_connectivity"]}
{"id": "C184", "title": "Pour points at segment ends give one subbasin per segment", "statement": "get_subbasins with the last cells of the MODFLOW-2005 segments as pour points (none of them cell 0, see C39) gives every cell the subbasin of the segment of the first stream cell on its flow path, and 0 if there is none; different segments have different subbasins, numbered 1 to the number of segments, a segment before its outseg; and the area of a segment's subbasin plus the accumulated areas at the ends of its tributary segments is the accumulated area at its own end.", "quantifier": "all flow directions, all stream networks without loops, all areas", "why_tests_cant": "relates three methods for every network", "anchors": ["dany/flow_directions.py:FlowDirections.get_subbasins", "dany/stream_util.py:StreamBase._mf2005_stream_connectivity", "dany/flow_directions.py:FlowDirections.flow_accumulation"]}
{"id": "C185", "title": "Many-to-one cascades stay inside a watershed", "statement": "With the watershed of an outlet as basin_boundary, the rows of get_cascades(many2many=False) name only cells of the watershed, list every one of them as hru_up, and lead every one to the outlet. (False of the code if the outlet flows on to a cell outside: this outside cell is listed, as flowing to itself, and the outlet is not; proved: this is the only exception, and the rows lead every cell to the outlet.)", "quantifier": "all loop-free flow directions, outlets and stream arrays", "why_tests_cant": "must hold for every flow field and every outlet", "anchors": ["dany/flow_directions.py:FlowDirections.get_watershed_boundary", "dany/stream_util.py:PrmsStreams.get_cascades", "dany/stream_util.py:PrmsStreams._build_many_to_one_cascades"]}
{"id": "C186", "title": "Rounded cascade fractions lose next to no water", "statement": "Take the arrays of get_cascades(many2many=True) at their word, as in C170, but with the fractions as computed in double precision (they need not add up to 1, C156). Then the water every cell gets is still determined, and the water that ends up in the cells that pass on nothing (those of C170) differs from the rain by at most N*100/2^53*(1+100/2^53)^N of it for N cells: less than a ten-millionth on grids of up to a million cells; in particular after fill_sinks('priority') and flow_directions in double precision.", "quantifier": "all grids, DEMs, stream arrays, boundaries, non-negative rain, summation orders of NumPy", "why_tests_cant": "rounding errors accumulate along every path of every cascade table", "anchors": ["dany/stream_util.py:PrmsStreams.get_cascades", "dany/stream_util.py:PrmsStreams._build_many_to_many_cascades"]}
{"id": "C187", "title": "Editing high ground does not change the fill of lower cells", "statement": "fill_sinks without a stream mask: if a DEM is edited only at cells that lie, before and after the edit, above the elevation a cell n was filled to, then n is filled to the same elevation again with 'complete' and with 'drain'. With 'priority' the two results differ by at most N increments of eps for N cells; these are needed: lowering a ridge from 8 to 5 can raise a cell filled to 4 to 11.", "quantifier": "all grids, DEMs, edits, eps, methods; any linear order of elevations", "why_tests_cant": "an edit may open or close any path; all of them have to be compared", "anchors": ["dany/dem_conditioning.py:fill_sinks", "dany/dem_conditioning.py:_priority_flood", "dany/dem_conditioning.py:_flood_and_drain_fill"]}
{"id": "C188", "title": "A flow direction depends on the cell and its neighbours only", "statement": "flow_directions: if two DEMs agree at a cell and its neighbours, the cell has a single steepest neighbour, and it is terminal (lowest of the grid or named by the user) in both or in neither, then it gets the same flow direction in both, provided neither DEM has ties or every cell drains in both (as after fill_sinks); and in any case, if it passes water on in both, it passes it to the same cell. With two steepest neighbours an edit elsewhere can turn the flow (witness).", "quantifier": "all grids, pairs of DEMs, thresholds, terminal cells, roundings", "why_tests_cant": "ranges over all edits of all DEMs; the search over flats looks at cells arbitrarily far away", "anchors": ["dany/flow_directions.py:FlowDirections.flow_directions", "dany/flow_directions.py:FlowDirections._calculate_slopes", "dany/flow_directions.py:FlowDirections._resolve_flats"]}
{"id": "C189", "title": "Editing elevations away from a watershed leaves it alone", "statement": "Let every cell drain before and after an edit of the DEM (as after fill_sinks). If the edit changes no elevation inside the watershed of a point, beside it, or one cell further, changes none of the cells in or beside it from or to terminal, and these have a single steepest neighbour each, then get_watershed_boundary marks the same cells after recomputation on a fresh object, and flow_accumulation gives the same values at all cells of the watershed.", "quantifier": "all grids, pairs of DEMs, points, areas", "why_tests_cant": "the watershed could gain cells from any side; all flow paths of both DEMs have to be compared", "anchors": ["dany/flow_directions.py:FlowDirections.flow_directions", "dany/flow_directions.py:FlowDirections.get_watershed_boundary", "dany/flow_directions.py:FlowDirections.flow_accumulation"]}
{"id": "C190", "title": "Catchments and reaches do not depend on the numbering of the cells", "statement": "Number the cells of a grid otherwise and give the same flow directions (C135: flow_directions does, on DEMs without ties). Then flow_accumulation gives every cell the value it had (off flow circles), get_watershed_boundary marks the same cells, delineate_streams the same stream cells, and get_stream_connectivity (MODFLOW 6) gives reach numbers to the same cells, links the same cells, and lets water leave the network at the same cells, although the reach numbers differ.", "quantifier": "all permutations of the cells, flow directions, areas, thresholds, stream arrays", "why_tests_cant": "ranges over all N! numberings", "anchors": ["dany/flow_directions.py:FlowDirections.flow_accumulation", "dany/flow_directions.py:FlowDirections.get_watershed_boundary", "dany/stream_util.py:StreamBase.delineate_streams", "dany/stream_util.py:StreamBase._mf6_stream_connectivity"]}
{"id": "C191", "title": "MODFLOW-2005 segments do not depend on the numbering of the cells", "statement": "For two numberings of the cells, the same flow directions and the same stream cells, the grouped MODFLOW-2005 connectivity differs by a renumbering of the segments only: there is a permutation f of the segment numbers such that a cell is reach r of segment s in the one table exactly if it is reach r of segment f(s) in the other, and outseg t of s becomes outseg f(t) of f(s), with 0 for segments that leave the network.", "quantifier": "all permutations of the cells, flow directions, stream arrays (also with circles)", "why_tests_cant": "ranges over all numberings; the segments are found by walks that start in the order of the numbers", "anchors": ["dany/stream_util.py:StreamBase._mf2005_stream_connectivity"]}
{"id": "C192", "title": "With a stream mask the fill floods the land from the streams", "statement": "Given a stream mask, fill_sinks fills every cell connected to a stream cell to its spill elevation towards the streams: the lowest, over all ways from the cell to a stream cell, of the highest ground on the way ('complete'), and at most N increments above it ('priority'). This holds if the fill lifts no stream cell, and it lifts none if no stream cell with two or more stream cells beside it lies below all of them; otherwise it can lift them.", "quantifier": "all grids, DEMs, stream masks, increments", "why_tests_cant": "the least of the greatest over all paths; the run depends on the order of the heap", "anchors": ["dany/dem_conditioning.py:fill_sinks", "dany/dem_conditioning.py:_priority_flood"]}
{"id": "C193", "title": "More outlets, a lower fill", "statement": "'complete': if every outlet of one call is an outlet of another on the same DEM (outlets: the cells of the stream mask if one is given, else the cells on the grid edge; e.g. a mask with more stream cells, or a mask of edge cells and no mask), the other fills no connected cell higher. Outlets must keep their elevations (always true without a mask).", "quantifier": "all grids, DEMs, pairs of masks or none", "why_tests_cant": "compares two runs for all DEMs and all pairs of masks", "anchors": ["dany/dem_conditioning.py:fill_sinks", "dany/dem_conditioning.py:_priority_flood"]}
{"id": "C194", "title": "Fills with a stream mask are monotone, stable and local", "statement": "'complete' with a stream mask, as long as neither fill lifts a stream cell: higher ground gives a nowhere lower fill; elevations that differ by at most d give fills that differ by at most d; editing cells that lie before and after the edit above the elevation to which a cell was filled does not change that cell. (If a stream cell is lifted, higher ground can give a lower fill.)", "quantifier": "all grids, stream masks, pairs of DEMs", "why_tests_cant": "compares two runs on all pairs of DEMs", "anchors": ["dany/dem_conditioning.py:fill_sinks", "dany/dem_conditioning.py:_priority_flood"]}
{"id": "C195", "title": "Subbasins and many-to-one cascades do not depend on the numbering of the cells", "statement": "Number the cells of a grid otherwise and give the same flow directions. Then get_subbasins divides the cells in the same way (two cells share a label in the one result exactly if they do in the other, and the same cells have label 0; labels may differ), provided no pour point is cell 0 in either numbering; and get_cascades(many2many=False) returns the same links.", "quantifier": "all permutations of the cells, flow directions, pour points, basin boundaries", "why_tests_cant": "ranges over all N! numberings", "anchors": ["dany/flow_directions.py:FlowDirections.get_subbasins", "dany/stream_util.py:PrmsStreams.get_cascades"]}
{"id": "C196", "title": "irunbnd does not depend on the numbering of the cells", "statement": "For two numberings of the cells, the same flow directions and the same segments, irunbnd sends the runoff of every cell to the same segment. (False of the code: of several segments on the flow path it takes that with the lowest cell number; true for cells below which there is one segment only, and whether a cell has a segment at all does not depend on the numbering.)", "quantifier": "all permutations of the cells, flow directions, stream arrays", "why_tests_cant": "ranges over all numberings", "anchors": ["dany/stream_util.py:Sfr2005.irunbnd"]}
{"id": "C197", "title": "Many-to-many cascades do not depend on the numbering of the cells", "statement": "For two numberings of the cells, the same flow directions, slopes, boundary and stream cells, get_cascades(many2many=True) returns the same links with the same fractions. (False of the code: it drops links to cells that drain into cell number 0; true if the same active cells drain into cell 0 in both numberings, e.g. none.)", "quantifier": "all permutations of the cells, flow directions, slope tables in any order, boundaries, stream arrays", "why_tests_cant": "ranges over all numberings", "anchors": ["dany/stream_util.py:PrmsStreams.get_cascades"]}
{"id": "C198", "title": "Naming a terminal cell stops the flow there and changes nothing else", "statement": "flow_directions on a DEM without ties, with one more cell c in terminal_cells: c flows to itself, every other cell flows as before (with ties, if all cells drain: every cell with one steepest neighbour). Then the watershed of a point keeps exactly the cells whose water comes to the point without passing c, the watershed of c is the same; and flow_accumulation gives c the same value, takes this value off every cell downstream of c, and leaves all others alone.", "quantifier": "all grids, DEMs without ties, terminal cells, points, areas", "why_tests_cant": "compares two runs for all DEMs and all choices of the cell", "anchors": ["dany/flow_directions.py:FlowDirections.flow_directions", "dany/flow_directions.py:FlowDirections.get_watershed_boundary", "dany/flow_directions.py:FlowDirections.flow_accumulation"]}
{"id": "C199", "title": "Control points work in double precision", "statement": "In double precision, where the thresholds 'accumulated area - 5' on the stems are rounded, threshold_from_control_points followed by delineate_streams finds exactly the stream cells it finds with exact thresholds, and with rounded accumulated areas: the stream cells are those on the main stems and those that have accumulated the threshold, the network is broken exactly where a control point drains to a cell on no stem below the threshold, and runs down to the outlets if every control point drains to a cell above it.", "quantifier": "all grids, flow directions without cycles, non-negative float64 areas, thresholds, control points, integer and float arrays", "why_tests_cant": "all roundings of all areas; a test sees a few values", "anchors": ["dany/stream_util.py:StreamBase.threshold_from_control_points", "dany/stream_util.py:StreamBase.delineate_streams", "dany/flow_directions.py:FlowDirections.flow_accumulation"]}
{"id": "C200", "title": "DEMs with gaps on structured grids, in double precision", "statement": "With float64 numbers throughout: fill_nan_values returns (raises, runs for ever) exactly if it does with exact arithmetic. On every structured grid of 2 to 999999 cells with a number in one of the last two rows and columns' up to four cells, and elevations hi >= x >= lo > 0 with hi at most 10^7 lo, fill_nan_values, fill_sinks and flow_directions return one after the other; every number is kept by the first, gaps are filled within hi/10^8 of the range of the numbers; the final surface lies nowhere below a number of the DEM; and with the edge cells without lower neighbour named terminal (ties as in C160) water runs strictly downhill from every cell, gap or not, to the edge.", "quantifier": "all structured grids up to a million cells, float64 DEMs with gaps, methods, orders of summation", "why_tests_cant": "all roundings, all patterns of gaps, all grid sizes", "anchors": ["dany/dem_conditioning.py:fill_nan_values", "dany/dem_conditioning.py:fill_sinks", "dany/flow_directions.py:FlowDirections.flow_directions"]}
{"id": "C201", "title": "Small errors of the elevations do not change clear flow directions", "statement": "Let two DEMs differ by at most delta. A cell that falls to one neighbour by more than 2 delta, and so much more steeply than to its other neighbours that no errors up to delta can reverse this, flows to that neighbour on both, if all cells drain. If all cells but the terminal ones are of this kind, and the lowest cells are named terminal or 2 delta lower than the other terminal cells, flow_directions returns the same array for both; so it does after fill_sinks with 'drain', and with 'priority' if delta + N*eps is taken for delta.", "quantifier": "all grids up to a million cells, pairs of DEMs with the same nodata cells, thresholds, terminal cells", "why_tests_cant": "compares the runs for all DEMs within the error", "anchors": ["dany/flow_directions.py:FlowDirections.flow_directions", "dany/dem_conditioning.py:fill_sinks"]}
{"id": "C202", "title": "ncon counts the neighbouring stream cells", "statement": "After get_stream_connectivity(), the record of every stream cell in packagedata() has ncon equal to the number of other stream cells that flow into this cell plus one if it flows to another stream cell itself, and its row in connectiondata() has exactly so many entries.", "quantifier": "all grids, flow directions, stream arrays (with flow circles too), geometries and recursion limits for which connectivity is found", "why_tests_cant": "MODFLOW 6 stops if ncon of one reach of one network is wrong; tests see a few networks", "anchors": ["dany/stream_util.py:Sfr6.packagedata", "dany/stream_util.py:Sfr6.connectiondata"]}
{"id": "C203", "title": "Stream tables do not depend on the numbering of the cells", "statement": "Number the cells of a grid otherwise (for instance mirror or transpose a structured grid) and give the same flow directions and stream cells. Then packagedata() has a record for the same cells, with the same length, gradient, top and ncon; reach_data() has the same reaches with the same length, top and slope, at the same place in their segments, up to one renumbering f of the segments, and segment_data() sends f(s) to f(t) if it sends s to t.", "quantifier": "all grids, permutations of the cells, flow directions, stream arrays, geometries; for MODFLOW-2005 grouped segments and new objects, when no call raises (C72)", "why_tests_cant": "quantifies over all permutations and networks", "anchors": ["dany/stream_util.py:Sfr6.packagedata", "dany/stream_util.py:Sfr2005.reach_data", "dany/stream_util.py:Sfr2005.segment_data"]}
{"id": "C204", "title": "The pyGSFLOW stream object in another unit of length", "statement": "If coordinates, cell sizes and elevations are all given in another unit of length (possibly in a turned, mirrored or moved system, above another datum), reach_data and Sfr2005.get_pygsflow_builder_object give the same segments, irunbnd, reaches and slopes (default and limiting slopes included), with lengths and tops converted, or raise the same exception. The constant defaults (widths, thickness, conductivity, roughness) are the same numbers in every unit.", "quantifier": "all grids, unit conversions, objects (with or without stored network), segment data and irunbnd given or not, with or without defaults, all keywords; exact arithmetic", "why_tests_cant": "quantifies over all conversions and networks", "anchors": ["dany/stream_util.py:Sfr2005.reach_data", "dany/stream_util.py:Sfr2005.get_pygsflow_builder_object"]}
{"id": "C205", "title": "A mirrored DEM is processed to mirrored results", "statement": "Take a structured grid, exchange its first and last rows, its first and last columns, or both (cell widths listed from the other end; the grid may also lie elsewhere, at another angle), and give the mirrored DEM. fill_sinks with method 'complete' or 'drain' returns the mirrored surface. If no cell of that has two steepest neighbours, flow_directions with mirrored terminal cells sends the water of the mirror image of n to the mirror image of the cell n flows to, and flow_accumulation gives mirrored areas. (For 'priority' this is false, see C123.) With method 'priority' the surface may differ, by at most the number of cells times eps.", "quantifier": "all structured grids of at least two cells, widths, positions, angles, DEMs, fill increments, lists of terminal cells, when the calls return; accumulation on cells that are not on a flow cycle; exact arithmetic", "why_tests_cant": "quantifies over all grids and DEMs; a test compares a few", "anchors": ["dany/dem_conditioning.py:fill_sinks", "dany/flow_directions.py:FlowDirections.flow_directions", "dany/flow_directions.py:FlowDirections.flow_accumulation"]}
{"id": "C206", "title": "The runoff table carries all the water of the rivers, once", "statement": "Given a stream array whose streams have no flow circles and no gaps (water that has left a stream does not come back to one), the summed area of the cells to which irunbnd gives a segment equals the sum of flow_accumulation over the cells where the streams leave. For networks delineated from flow_accumulation, get_pygsflow_builder_object gives runoff targets to exactly the area of the rivers whose accumulated area at the outlet reaches the threshold: nothing of them is left out and nothing counted twice.", "quantifier": "all flow directions, stream arrays, areas, thresholds; exact arithmetic; second part on directions without circles and with non-negative areas", "why_tests_cant": "a sum over all cells of any network equals a sum over its exits; tests see a few networks", "anchors": ["dany/stream_util.py:Sfr2005.irunbnd", "dany/stream_util.py:Sfr2005.get_pygsflow_builder_object", "dany/flow_directions.py:FlowDirections.flow_accumulation"]}
{"id": "C207", "title": "Both stream packages give connected reaches the same geometry", "statement": "Build the MODFLOW 6 and the MODFLOW-2005 package from the same flow directions, stream array, cell centres and elevations. For every row of reach_data there is a record of packagedata in the same cell with the same top; if the cell's water goes on to another stream cell, both have the same positive length, and the same gradient unless the drop is between 0 and 1e-6 (then packagedata has 0). At an outlet flowing to itself packagedata has gradient 0 and reach_data 0.0001.", "quantifier": "all grids with different cell centres, flow directions, stream arrays, elevations; grouped or ungrouped segments; new Sfr2005 objects, when the calls return; real numbers (before FloPy's single precision)", "why_tests_cant": "the two tables are computed by different code from different inputs; equality must hold for every reach of every network", "anchors": ["dany/stream_util.py:Sfr6.packagedata", "dany/stream_util.py:Sfr2005.reach_data", "dany/flow_directions.py:FlowDirections.slope"]}
{"id": "C208", "title": "A DEM turned by a quarter is processed to turned results", "statement": "Take a structured grid and turn it by a quarter, or transpose it along either diagonal, so that rows become columns and row heights column widths (the new grid may lie elsewhere, at another angle), and give the turned DEM. fill_sinks with method 'complete' or 'drain' returns the turned surface. If no cell of that has two steepest neighbours, flow_directions with turned terminal cells sends the water of the image of n to the image of the cell n flows to, and flow_accumulation gives the image of every cell that is not on a flow cycle the same area.", "quantifier": "all structured grids of two or more cells, widths, positions, rotations, DEMs, flood values at or above the DEM, in-range terminal cells; all four turns; calls that return; exact arithmetic", "why_tests_cant": "rows and columns play different parts in cell numbers, vertices and centres, and the order of heap and searches changes with the numbering; tests use one orientation", "anchors": ["dany/dem_conditioning.py:fill_sinks", "dany/flow_directions.py:FlowDirections.flow_directions", "dany/flow_directions.py:FlowDirections.flow_accumulation"]}
{"id": "C209", "title": "A model of part of the grid agrees with the whole", "statement": "Take part of a grid, with its cells numbered in any way, the elevations and neighbours as they are, and the cells that have neighbours outside the part named terminal (like those named in the whole). If no cell has two steepest neighbours, flow_directions sends the water of every non-terminal cell of the part where it goes in the whole. The watershed of a cell in the part lies in its watershed in the whole, its flow_accumulation is at most that in the whole, and delineate_streams with the same contributing area finds no stream cells that are not stream cells in the whole. If the part contains the watershed of the cell, with no terminal cell on the way, watershed, accumulation and stream flag are those of the whole.", "quantifier": "all grids and parts of them, numberings, elevations, in-range terminal cells, non-negative areas; no flow circles in the whole; calls that return; exact arithmetic, no ties", "why_tests_cant": "ranges over all grids and all ways of cutting them; tests use one grid", "anchors": ["dany/flow_directions.py:FlowDirections.flow_directions", "dany/flow_directions.py:FlowDirections.get_watershed_boundary", "dany/flow_directions.py:FlowDirections.flow_accumulation", "dany/stream_util.py:StreamBase.delineate_streams"]}
{"id": "C210", "title": "Filling a part of the grid", "statement": "Take part of a grid, in which cells with neighbours outside the part lie on its edge; every rectangular window of a structured grid is such a part. fill_sinks with 'complete' or 'drain' raises no cell of the part higher than it raises it in the whole, and to the same elevation if no cell of the part's border inside the whole is lower than that. With 'priority' a cell can come out higher, by at most M increments of eps for M cells of the part. With a stream mask ('complete', no stream cell lifted) the part is filled at least as high as in the whole, and as high if all cells outside it are at least that high. A part cut out of the filled surface of the whole is not changed by filling it again with the same method.", "quantifier": "all grids with mutual neighbours and parts of them, numberings, DEMs, eps (for the last claim with 'priority' eps > 0), flood values at or above the DEM; cells connected to the edge of the whole (with 'complete' and 'priority'); calls that return", "why_tests_cant": "ranges over all grids and all ways of cutting them; tests use one grid", "anchors": ["dany/dem_conditioning.py:fill_sinks", "dany/dem_conditioning.py:_priority_flood", "dany/dem_conditioning.py:_flood_and_drain_fill"]}
{"id": "C211", "title": "The two halves of a GSFLOW model on any streams without gaps", "statement": "For any 0/1 stream array in which the cell below a stream cell is a stream cell -- drawn by hand, delineated by a threshold from areas added up in double precision, by a threshold per cell that does not rise downstream, or cut back from its sources -- Sfr2005.get_pygsflow_builder_object and PrmsStreams.get_pygsflow_builder_object both return and fit together as in C168 and C169: equally many segments; irunbnd is nonzero exactly at cells that drain to an outlet on the stream; and, if every outlet on the stream receives another stream cell, equally many reaches, every cascade into a stream cell names a cell and segment of the SFR tables, every other cascade segment 0, and every cell's runoff goes to a segment on the way of its water. Conditions: no flow circles, the recursion limit exceeds the number of segments, some stream cell flows to another cell (otherwise the Sfr2005 builder raises IndexError). Structured grids satisfy them from the float64 DEM on.", "quantifier": "all flow directions without circles, stream arrays, areas and thresholds, elevations, cell columns, slopes, active arrays, recursion limits", "why_tests_cant": "ranges over all networks and all streams drawn on them", "anchors": ["dany/stream_util.py:Sfr2005.get_pygsflow_builder_object", "dany/stream_util.py:PrmsStreams.get_pygsflow_builder_object", "dany/stream_util.py:StreamBase.delineate_streams"]}
{"id": "C212", "title": "A GSFLOW model of one watershed is built", "statement": "Take the watershed of a cell p and delineate streams with it as basin_boundary, at least one cell other than p reaching the threshold. Then PrmsStreams.get_pygsflow_builder_object and Sfr2005.get_pygsflow_builder_object both return and fit together: equally many segments; as many reaches as stream cells; every cascade into a stream cell names a cell and segment of the SFR tables, every other cascade segment 0; irunbnd is nonzero exactly in the watershed and names a segment on the way of the water. (False of the code: if p flows on to a cell outside and a segment of two or more reaches ends in a cell whose column, counted from 0, is the number of segments, the Sfr2005 builder raises KeyError; for instance if one stream cell flows into p and the column of p is the number of segments. Proved: this is the only failure, and whenever the builder returns, everything else holds.)", "quantifier": "all flow directions without circles through p, areas >= 0, thresholds, cells p, numbers of columns, elevations, slopes, active arrays, recursion limits above the number of segments", "why_tests_cant": "the failure depends on the column of a cell and the number of segments; a test meets it by chance", "anchors": ["dany/stream_util.py:Sfr2005.get_pygsflow_builder_object", "dany/stream_util.py:PrmsStreams.get_pygsflow_builder_object", "dany/stream_util.py:StreamBase.delineate_streams"]}
{"id": "C213", "title": "Cell areas in double precision", "statement": "With every product, difference, sum and quotient of _shoelace_area rounded to the nearest double, the area of a cell is still that of its own polygon (padding to the longest polygon changes nothing). It differs from the exact area by at most 1.01 (k B^2 + k(k+5)/2 B D) / 2^53 for k <= 1000 vertices of magnitude at most B >= 1 and extent at most D: by at most 1/8 for cells of ten vertices and ten kilometres in coordinates below ten million. It is exact if all coordinates are multiples j of one power of two (whole metres below ten million, say) with 2 k j^2 <= 2^53; then, up to 2^53 units, flow accumulation is exactly the sum of the upstream polygon areas and a stream cell is exactly one where this sum reaches the threshold. (Without these bounds areas may be wrong altogether: the unit square at (10^8, 10^8+3) has area 0, and 30 m cells at UTM coordinates in millimetres compare below 900.)", "quantifier": "all polygons, grids, flow directions without circles, thresholds; every rounding to nearest", "why_tests_cant": "tests use coordinates near the origin; the error grows with the square of the coordinates", "anchors": ["dany/flow_directions.py:FlowDirections._shoelace_area", "dany/flow_directions.py:FlowDirections.flow_accumulation", "dany/stream_util.py:StreamBase.delineate_streams"]}
{"id": "C214", "title": "Reach lengths and slopes in floating point", "statement": "With every operation of reach_data rounded to the nearest double and FloPy's columns in single precision, reach_data returns (or raises) as in exact arithmetic, makes the same network and gives the same numbers in every other column, strtop rounded. A reach whose cell flows to another stream cell has a positive length, 1.5 times the distance of the cell centres up to a fraction of 2^-23; if the water falls by at least 2^-20 its slope is positive and is drop over length up to a fraction of 2^-23. A reach that leaves the stream or ends in itself has the single-precision number next to 0.0001 as its slope, which is less than 0.0001.", "quantifier": "all flow directions, streams, structured grids with centres at doubles whose coordinates differ by nothing or by 2^-500 to 2^98 and which are at least 2^-100 apart, accurate square roots", "why_tests_cant": "rounding depends on every coordinate and elevation", "anchors": ["dany/stream_util.py:Sfr2005.reach_data"]}
{"id": "C215", "title": "Lengths and gradients of packagedata in floating point", "statement": "With every operation rounded to the nearest double, packagedata after get_stream_connectivity has one record per stream cell, with the reach number, cell, elevation and number of connections of C54 and a positive length: 1.5 times the distance of the centres of the cell and the next stream cell up to a fraction of 2^-49, or, for a reach that leaves the stream or ends in itself, 1.5 times the mean of the measured sides up to a fraction of 2^-40, in whatever order NumPy adds them. Where the stream continues and the bed falls by 1e-6 or more, the gradient is positive and is drop over length up to a fraction of 2^-47, and length times gradient is the drop up to a fraction of 2^-45.", "quantifier": "all flow directions, streams, grids with centres and vertices at doubles whose coordinates differ by nothing or by 2^-500 to 2^98, polygons of up to 257 vertices, flowing cells at least 2^-100 apart, accurate square roots", "why_tests_cant": "rounding depends on every coordinate and elevation", "anchors": ["dany/stream_util.py:Sfr6.packagedata", "dany/flow_directions.py:FlowDirections.slope"]}
{"id": "C216", "title": "The builder in floating point", "statement": "With every operation rounded to the nearest double and single-precision columns, get_pygsflow_builder_object returns or raises as in exact arithmetic, with the same segments, runoff array and reaches but for lengths and slopes. With apply_defaults every slope that is a number lies between the single-precision number next to 0.0001 (which is less than 0.0001) and 1, and in the table it computes the slope of the row of the last cell is the single-precision number next to 0.001 and every other slope is the drop to the last cell over the distance to it, limited to 0.0001 and 1, up to a fraction of 2^-23. The segment defaults are exact but for roughch, which is the single-precision number next to 0.025. A completed reach table passed in again comes back unchanged to the last bit.", "quantifier": "all flow directions, streams, tables of the caller, grids; for the accuracy centres at doubles whose coordinates differ by nothing or by 2^-500 to 2^98, elevations that are doubles, accurate square roots", "why_tests_cant": "rounding depends on every coordinate and elevation", "anchors": ["dany/stream_util.py:Sfr2005.get_pygsflow_builder_object"]}
{"id": "C217", "title": "The Nash-Sutcliffe efficiency in floating point", "statement": "With every operation rounded to the nearest double and the values added in any order that depends on their number only: a score that is a number is at most 1 and a normalised one lies between 0 and 1; it is a number if two observed values differ by 2^-499 or more; a simulation that agrees wherever both have values scores exactly 1, one that predicts the computed mean exactly 0 (normalised one half); 1 means that the quotient of the sums is at most 2^-54; a simulation that is nowhere further away, or has values left out, scores no less. If all observed values are the same number whose multiples are doubles the score is NaN or minus infinity as in exact arithmetic, but not for, say, 0.1 three times. For up to a million values whose standard deviation is at least 2^-15 of the largest, the score differs from the one r of real arithmetic by no more than (1 - r) 2^-28 + 2^-52.", "quantifier": "all series of doubles with missing values, all orders of summation, any machine logarithm; no overflow", "why_tests_cant": "rounding depends on every value and on the order of summation", "anchors": ["examples/nse_util.py:nash_sutcliffe_efficiency"]}
{"id": "C218", "title": "irunbnd takes linear steps and quadratic time", "statement": "irunbnd ends on all arrays, also if the flow goes round in circles. A cell is taken from the stack exactly once for every stream cell and once for every cell whose next cell drains to a stream cell, that is no more than twice the number of cells. But the visited cells are kept in a list that is searched from the front: with v cells that have inflow and drain to a stream cell there are at least v (v - 1) / 2 comparisons (a valley of N cells: at least (N - 1) (N - 2) / 2), and no more than v for every cell taken.", "quantifier": "all flow direction arrays and stream arrays; valleys of every length", "why_tests_cant": "running times depend on the whole network; a test measures one", "anchors": ["dany/stream_util.py:Sfr2005.irunbnd"]}
{"id": "C219", "title": "watershed and subbasin delineation takes linear steps and at most quadratic time", "statement": "get_watershed_boundary takes a cell from its queue exactly once for every cell whose next cell drains to the pour point: as many as the watershed has cells, less one unless the pour point drains to itself, on all flow directions including those that go round in circles. All the watersheds of one get_subbasins call together take at most one cell per cell of the grid, however many pour points there are and however they are nested. list.pop(0) moves at most p (p - 1) / 2 entries when p cells are taken, and that many when all cells drain straight to the pour point. Filling the table of reversed flow directions looks at 1 + 2 + ... + k entries for a cell that k cells flow into.", "quantifier": "all grids, flow directions, pour points and histories of calls", "why_tests_cant": "running times depend on the whole network; a test measures one", "anchors": ["dany/flow_directions.py:FlowDirections.get_watershed_boundary", "dany/flow_directions.py:FlowDirections.get_subbasins", "dany/flow_directions.py:FlowDirections._reverse_flow_directions"]}
{"id": "C220", "title": "the search of get_subbasins for the next pour points takes cubic time", "statement": "With no pour point on a flow cycle, the search of get_subbasins for the next pour point downstream runs its loop at most N + 1 times for each pour point (N the number of cells) and makes at most N (N - 1) / 2 comparisons with cells already visited, which are kept in a list. There are networks of every size with N / 2 pour points that need more than N^3 / 16 comparisons.", "quantifier": "all grids, flow directions and lists of pour points; a family of networks of every size", "why_tests_cant": "running times depend on the whole network; a test measures one", "anchors": ["dany/flow_directions.py:FlowDirections.get_subbasins"]}
{"id": "C221", "title": "the priority flood takes linear steps", "statement": "With method 'priority' or 'complete', and whenever a stream mask is given, fill_sinks takes from its two queues exactly once every cell that is connected to an outlet (the edge of the grid, or the stream cells) and looks exactly once at each neighbour of each of these: at most N cells and 8 N neighbours on a raster of N cells, and all N if every cell is connected to an outlet. pit.pop(0) moves at most T (T - 1) / 2 entries when T cells are taken. The elevations and the rounding of x + eps do not matter.", "quantifier": "all grids, elevations, stream masks and roundings of x + eps that do not fall below x", "why_tests_cant": "running times depend on the whole grid; a test measures one", "anchors": ["dany/dem_conditioning.py:fill_sinks", "dany/dem_conditioning.py:_priority_flood"]}
{"id": "C222", "title": "Topology.sort takes one call per segment and at most quadratic time", "statement": "If Topology.sort succeeds, it has called _sort_util exactly once for each segment, and once more if some segment flows into the outlet code 0, on every network, also with cycles. stack.insert(0, seg) has moved at most n (n - 1) / 2 entries for n segments, and exactly that many on every network without cycles that has a single outlet segment: for instance a river of n segments takes n + 1 calls and moves n (n - 1) / 2 entries. So sorting takes quadratic time on every network with one outlet.", "quantifier": "all networks whose outflow segments exist, recursion limits, and rivers of every length", "why_tests_cant": "running times depend on the whole network; a test measures one", "anchors": ["dany/stream_util.py:Topology.sort", "dany/stream_util.py:Topology._sort_util"]}
{"id": "C223", "title": "building the MODFLOW-2005 stream network takes quadratic time", "statement": "Let S be the number of stream cells and D how many of them flow into a stream cell. When the grouped MODFLOW-2005 connectivity succeeds, its search for headwaters (`node not in nodesdn`) has made at least D (D + 1) / 2 and at most S D comparisons, its search for confluences exactly D^2, and the while loops along the segments have turned exactly once for each cell downstream of the start of a segment: at most S times, and S times if all stream cells lie downstream of headwaters. So on every network with a single exit both searches take quadratic time, however its cells are connected, while the walk along the segments takes linear time.", "quantifier": "all grids, flow directions (also cyclic) and stream masks", "why_tests_cant": "running times depend on the whole network; a test measures one", "anchors": ["dany/stream_util.py:StreamBase._mf2005_stream_connectivity"]}
