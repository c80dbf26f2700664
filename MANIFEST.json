{
 "claims": [
  {
   "property": "C01",
   "status": "proved",
   "theorems": [
    "Dany.Flood.C01_never_lowers"
   ],
   "note": "all methods, any linear order of elevations, any inflationary x+eps"
  },
  {
   "property": "C02",
   "status": "proved",
   "theorems": [
    "Dany.Flood.C02_edges_unchanged"
   ],
   "note": ""
  },
  {
   "property": "C03",
   "status": "proved",
   "theorems": [
    "Dany.Flood.C03_drains_strictly",
    "Dany.Flood.C03_complete_drains",
    "Dany.Flood.C03_drain_drains"
   ],
   "note": ""
  },
  {
   "property": "C04",
   "status": "proved",
   "theorems": [
    "Dany.Flood.C04_disconnected"
   ],
   "note": ""
  },
  {
   "property": "C05",
   "status": "proved",
   "theorems": [
    "Dany.Flood.C05_terminates",
    "Dany.Flood.C05_visits_once"
   ],
   "note": ""
  },
  {
   "property": "C06",
   "status": "proved",
   "theorems": [
    "Dany.Flood.C06_spill"
   ],
   "note": ""
  },
  {
   "property": "C07",
   "status": "proved",
   "theorems": [
    "Dany.Flood.C07_idempotent"
   ],
   "note": ""
  },
  {
   "property": "C08",
   "status": "proved",
   "theorems": [
    "Dany.Flood.C08_monotone"
   ],
   "note": ""
  },
  {
   "property": "C09",
   "status": "proved",
   "theorems": [
    "Dany.Flood.C09_overfill"
   ],
   "note": ""
  },
  {
   "property": "C10",
   "status": "proved",
   "theorems": [
    "Dany.Flood.C10_drain_least",
    "Dany.Flood.C10_renumber"
   ],
   "note": ""
  },
  {
   "property": "C11",
   "status": "proved",
   "theorems": [
    "Dany.Flood.C11_drain_terminates",
    "Dany.Flood.C11_drain_terminates_rat"
   ],
   "note": ""
  },
  {
   "property": "C12",
   "status": "proved",
   "theorems": [
    "Dany.Flood.C12_drain_eq_complete"
   ],
   "note": ""
  },
  {
   "property": "C13",
   "status": "proved",
   "theorems": [
    "Dany.Flood.C13_stream_mask_drains"
   ],
   "note": ""
  },
  {
   "property": "C14",
   "status": "partial",
   "theorems": [
    "Dany.Flood.C14_stream_pits_partial",
    "Dany.Flood.C14_complete",
    "Dany.Flood.C14_refuted"
   ],
   "note": "false of the code for eps > 0 (C14_refuted); proved: pits are at most one eps deep, and none with 'complete'"
  },
  {
   "property": "C15",
   "status": "proved",
   "theorems": [
    "Dany.Edge.C15_edge_nodes",
    "Dany.Edge.C15_total",
    "Dany.Edge.C15_presentation"
   ],
   "note": ""
  },
  {
   "property": "C16",
   "status": "proved",
   "theorems": [
    "Dany.Edge.C16_structured_edge"
   ],
   "note": "vertex numbering of FloPy's StructuredGrid is an input of the model"
  },
  {
   "property": "C17",
   "status": "proved",
   "theorems": [
    "Dany.Flood.C17_mask",
    "Dany.Flood.C17_case",
    "Dany.Flood.C17_complete_ignores_eps",
    "Dany.Flood.C17_drain"
   ],
   "note": ""
  },
  {
   "property": "C18",
   "status": "proved",
   "theorems": [
    "Dany.Nan.C18_keeps_valid"
   ],
   "note": ""
  },
  {
   "property": "C19",
   "status": "proved",
   "theorems": [
    "Dany.Nan.C19_range"
   ],
   "note": ""
  },
  {
   "property": "C20",
   "status": "partial",
   "theorems": [
    "Dany.Nan.C20_terminates_partial",
    "Dany.Nan.C20_diverges",
    "Dany.Nan.C20_exact",
    "Dany.Nan.C20_refuted"
   ],
   "note": "the property as stated is false of the code (C20_refuted); proved instead: the exact criterion for termination"
  },
  {
   "property": "C21",
   "status": "partial",
   "theorems": [
    "Dany.Dirs.C21_values",
    "Dany.Dirs.C21_legal_partial",
    "Dany.Dirs.C21_refuted"
   ],
   "note": "false of the code: a cell whose neighbours all lack an elevation can get the number N (C21_refuted); proved: nothing else can happen (C21_values), and the claim if every valid cell has a valid neighbour; fewer than 10^6 cells"
  },
  {
   "property": "C22",
   "status": "proved",
   "theorems": [
    "Dany.Dirs.C22_steepest"
   ],
   "note": ""
  },
  {
   "property": "C23",
   "status": "partial",
   "theorems": [
    "Dany.Dirs.C23_terminal_partial",
    "Dany.Dirs.C23_refuted"
   ],
   "note": "false of the code (C23_refuted); proved for terminal cells whose ties are easy: a cell that is not terminal and has the terminal cell among its steepest neighbours has at most three of these, any two of them neighbours"
  },
  {
   "property": "C24",
   "status": "proved",
   "theorems": [
    "Dany.Dirs.C24_nan"
   ],
   "note": ""
  },
  {
   "property": "C25",
   "status": "proved",
   "theorems": [
    "Dany.Dirs.C25_downhill",
    "Dany.Dirs.C25_no_return"
   ],
   "note": "fewer than 10^6 cells; any rounding that keeps the order and loses no fall between neighbours (exact arithmetic with positive distances is one); double precision: C113"
  },
  {
   "property": "C26",
   "status": "proved",
   "theorems": [
    "Dany.Dirs.C26_terminates",
    "Dany.Dirs.C26_isolated_raises",
    "Dany.Dirs.C26_alone"
   ],
   "note": "elevations and slopes below the fill value 1e10; also covers NaN cells; C26_isolated_raises shows the neighbour hypothesis is needed"
  },
  {
   "property": "C27",
   "status": "proved",
   "theorems": [
    "Dany.Dirs.C27_fill_then_route",
    "Dany.Dirs.C27_reaches_edge"
   ],
   "note": "arithmetic as in C25"
  },
  {
   "property": "C28",
   "status": "proved",
   "theorems": [
    "Dany.Dirs.C28_outlet_check"
   ],
   "note": ""
  },
  {
   "property": "C29",
   "status": "proved",
   "theorems": [
    "Dany.Dirs.C29_history_independent"
   ],
   "note": ""
  },
  {
   "property": "C30",
   "status": "proved",
   "theorems": [
    "Dany.Acc.C30_nidp"
   ],
   "note": ""
  },
  {
   "property": "C31",
   "status": "proved",
   "theorems": [
    "Dany.Acc.C31_terminates"
   ],
   "note": ""
  },
  {
   "property": "C32",
   "status": "proved",
   "theorems": [
    "Dany.Acc.C32_upstream_sum"
   ],
   "note": ""
  },
  {
   "property": "C33",
   "status": "proved",
   "theorems": [
    "Dany.Acc.C33_conservation"
   ],
   "note": ""
  },
  {
   "property": "C34",
   "status": "proved",
   "theorems": [
    "Dany.Acc.C34_grows_downstream",
    "Dany.Acc.C34_counts_grow"
   ],
   "note": ""
  },
  {
   "property": "C35",
   "status": "partial",
   "theorems": [
    "Dany.Acc.C35_sinks_partial",
    "Dany.Acc.C35_refuted"
   ],
   "note": "false of the code on every grid with at least three cells (C35_refuted); proved: the area of a sink reaches exactly the path of cell N-2"
  },
  {
   "property": "C36",
   "status": "proved",
   "theorems": [
    "Dany.Basin.C36_watershed",
    "Dany.Basin.C36_repeated"
   ],
   "note": ""
  },
  {
   "property": "C37",
   "status": "partial",
   "theorems": [
    "Dany.Basin.C37_follows_partial",
    "Dany.Basin.C37_exact",
    "Dany.Basin.C37_last",
    "Dany.Basin.C37_old",
    "Dany.Basin.C37_refuted"
   ],
   "note": "false of the code: the reversed table is cached forever (C37_refuted); proved: harmless when the directions are unchanged or nothing was cached, and exactly which cells are found otherwise (C37_exact): the old watershed if the inflow counts are unchanged, the last cell of the grid on top of it where they grow"
  },
  {
   "property": "C38",
   "status": "proved",
   "theorems": [
    "Dany.Basin.C38_subbasins",
    "Dany.Basin.C38_limit",
    "Dany.Basin.C38_returned"
   ],
   "note": ""
  },
  {
   "property": "C39",
   "status": "partial",
   "theorems": [
    "Dany.Basin.C39_other_cells_partial",
    "Dany.Basin.C39_refuted",
    "Dany.Basin.C39_raises",
    "Dany.Basin.C39_always_raises",
    "Dany.Basin.C39_ignored"
   ],
   "note": "false of the code for a pour point in cell 0 (C39_refuted, C39_raises); proved for all other cells; exact behaviour with a point in cell 0: an exception always if water of another point reaches cell 0 (C39_always_raises), otherwise the point is ignored (C39_ignored)"
  },
  {
   "property": "C40",
   "status": "proved",
   "theorems": [
    "Dany.Geom.C40_nonneg",
    "Dany.Geom.C40_patch",
    "Dany.Geom.C40_translate",
    "Dany.Geom.C40_start",
    "Dany.Geom.C40_reverse",
    "Dany.Geom.C40_cut",
    "Dany.Geom.C40_triangle",
    "Dany.Geom.C40_rectangle"
   ],
   "note": "any ordered field instead of floats"
  },
  {
   "property": "C41",
   "status": "proved",
   "theorems": [
    "Dany.Geom.C41_aspect",
    "Dany.Geom.C41_vectors"
   ],
   "note": "real numbers instead of floats; a cell flowing to itself gets aspect 0 and vector (1, 0)"
  },
  {
   "property": "C42",
   "status": "proved",
   "theorems": [
    "Dany.Geom.C42_slope"
   ],
   "note": "real numbers instead of floats"
  },
  {
   "property": "C43",
   "status": "proved",
   "theorems": [
    "Dany.Geom.C43_hru_len",
    "Dany.Geom.C43_nonneg",
    "Dany.Geom.C43_uniform"
   ],
   "note": "real numbers instead of floats"
  },
  {
   "property": "C44",
   "status": "proved",
   "theorems": [
    "Dany.Delin.C44_number",
    "Dany.Delin.C44_arrays",
    "Dany.Delin.C44_exact",
    "Dany.Delin.C44_sizes",
    "Dany.Delin.C44_monotone"
   ],
   "note": ""
  },
  {
   "property": "C45",
   "status": "proved",
   "theorems": [
    "Dany.Delin.C45_areas",
    "Dany.Delin.C45_counts",
    "Dany.Delin.C45_to_outlet"
   ],
   "note": ""
  },
  {
   "property": "C46",
   "status": "proved",
   "theorems": [
    "Dany.Topo.C46_permutation",
    "Dany.Topo.C46_succeeds",
    "Dany.Topo.C46_limit"
   ],
   "note": "for every recursion limit: RecursionError or the permutation; no RecursionError if the limit covers the longest flow path; the limit never changes a returned value"
  },
  {
   "property": "C47",
   "status": "proved",
   "theorems": [
    "Dany.Topo.C47_upstream_first"
   ],
   "note": ""
  },
  {
   "property": "C48",
   "status": "partial",
   "theorems": [
    "Dany.Topo.C48_short_partial",
    "Dany.Topo.C48_few_partial",
    "Dany.Topo.C48_river_partial",
    "Dany.Topo.C48_refuted"
   ],
   "note": "false of the code for every recursion limit (C48_refuted); proved for networks whose flow paths are not longer than the limit, however many segments"
  },
  {
   "property": "C49",
   "status": "proved",
   "theorems": [
    "Dany.Reach.C49_reach_numbers",
    "Dany.Reach.C49_numbering"
   ],
   "note": ""
  },
  {
   "property": "C50",
   "status": "proved",
   "theorems": [
    "Dany.Reach.C50_downstream"
   ],
   "note": ""
  },
  {
   "property": "C51",
   "status": "proved",
   "theorems": [
    "Dany.Reach.C51_repeatable",
    "Dany.Reach.C51_object"
   ],
   "note": ""
  },
  {
   "property": "C52",
   "status": "proved",
   "theorems": [
    "Dany.Reach.C52_connectiondata"
   ],
   "note": ""
  },
  {
   "property": "C53",
   "status": "proved",
   "theorems": [
    "Dany.Reach.C53_signs",
    "Dany.Reach.C53_reciprocal",
    "Dany.Reach.C53_network",
    "Dany.Reach.C53_ambiguous"
   ],
   "note": ""
  },
  {
   "property": "C54",
   "status": "proved",
   "theorems": [
    "Dany.Reach.C54_packagedata"
   ],
   "note": "constant columns and FloPy's node-to-(layer,row,column) conversion are not modelled; the mean side length used at outlets is an input"
  },
  {
   "property": "C55",
   "status": "partial",
   "theorems": [
    "Dany.Reach.C55_numbered_partial",
    "Dany.Reach.C55_refuted",
    "Dany.Reach.C55_refuted_concrete"
   ],
   "note": "false of the code for every binary array with two or more stream cells (C55_refuted)"
  },
  {
   "property": "C56",
   "status": "proved",
   "theorems": [
    "Dany.Seg.C56_partition",
    "Dany.Seg.C56_rows",
    "Dany.Seg.C56_terminates",
    "Dany.Seg.C56_any_limit",
    "Dany.Seg.C56_cycle_unlisted"
   ],
   "note": ""
  },
  {
   "property": "C57",
   "status": "proved",
   "theorems": [
    "Dany.Seg.C57_starts",
    "Dany.Seg.C57_outseg"
   ],
   "note": ""
  },
  {
   "property": "C58",
   "status": "proved",
   "theorems": [
    "Dany.Seg.C58_numbers",
    "Dany.Seg.C58_downstream",
    "Dany.Seg.C58_cells"
   ],
   "note": ""
  },
  {
   "property": "C59",
   "status": "proved",
   "theorems": [
    "Dany.Seg.C59_ungrouped",
    "Dany.Seg.C59_limit"
   ],
   "note": ""
  },
  {
   "property": "C60",
   "status": "partial",
   "theorems": [
    "Dany.Seg.C60_partial",
    "Dany.Seg.C60_refuted"
   ],
   "note": "false of the code on every unstructured grid with two or more cells (C60_refuted); proved for structured and vertex grids"
  },
  {
   "property": "C61",
   "status": "partial",
   "theorems": [
    "Dany.Casc.C61_multiplicity_partial",
    "Dany.Casc.C61_once_iff",
    "Dany.Casc.C61_refuted"
   ],
   "note": "false of the code: a cell is listed once per active cell flowing to the same place (C61_refuted); proved: the exact multiplicity, and that it is one for every cell exactly when the directions are injective"
  },
  {
   "property": "C62",
   "status": "proved",
   "theorems": [
    "Dany.Casc.C62_links",
    "Dany.Casc.C62_no_boundary",
    "Dany.Casc.C62_succeeds"
   ],
   "note": ""
  },
  {
   "property": "C63",
   "status": "partial",
   "theorems": [
    "Dany.Casc.C63_rows_partial",
    "Dany.Casc.C63_rows_none",
    "Dany.Casc.C63_fractions_partial",
    "Dany.Casc.C63_refuted"
   ],
   "note": "false of the code exactly when every lower neighbour inside the boundary drains into cell 0 and none is outside (C63_rows_none, C63_refuted); proved otherwise"
  },
  {
   "property": "C64",
   "status": "partial",
   "theorems": [
    "Dany.Casc.C64_rows_partial",
    "Dany.Casc.C64_rows_leave",
    "Dany.Casc.C64_links_partial",
    "Dany.Casc.C64_leaves",
    "Dany.Casc.C64_refuted"
   ],
   "note": "false of the code at the basin boundary (C64_leaves, C64_refuted)"
  },
  {
   "property": "C65",
   "status": "proved",
   "theorems": [
    "Dany.Irun.C65_path",
    "Dany.Irun.C65_object",
    "Dany.Irun.C65_given"
   ],
   "note": ""
  },
  {
   "property": "C66",
   "status": "partial",
   "theorems": [
    "Dany.Irun.C66_exact_partial",
    "Dany.Irun.C66_first_partial",
    "Dany.Irun.C66_refuted",
    "Dany.Irun.C66_refuted_concrete",
    "Dany.Irun.C66_refuted_stream"
   ],
   "note": "false of the code on every network in which land drains into the last cell of a segment that flows on (C66_refuted); proved: the exact value of every cell"
  },
  {
   "property": "C67",
   "status": "proved",
   "theorems": [
    "Dany.Vec.C67_vectors",
    "Dany.Vec.C67_omitted",
    "Dany.Vec.C67_flow_order",
    "Dany.Vec.C67_complete"
   ],
   "note": "vertices are the images of the cells under an arbitrary function (the centre coordinates)"
  },
  {
   "property": "C68",
   "status": "proved",
   "theorems": [
    "Dany.Delin.C68_stems",
    "Dany.Delin.C68_delineated",
    "Dany.Delin.C68_contains",
    "Dany.Delin.C68_diverges"
   ],
   "note": "FloPy's point location is an input"
  },
  {
   "property": "C69",
   "status": "partial",
   "theorems": [
    "Dany.Rdata.C69_refuted",
    "Dany.Rdata.C69_none_partial",
    "Dany.Rdata.C69_refuted_concrete"
   ],
   "note": "false of the code: every keyword other than group_segments raises"
  },
  {
   "property": "C70",
   "status": "proved",
   "theorems": [
    "Dany.Rdata.C70_limits"
   ],
   "note": "any ordered field instead of floats; default limits, since no keyword can change them (C69)"
  },
  {
   "property": "C71",
   "status": "proved",
   "theorems": [
    "Dany.Rdata.C71_numbering"
   ],
   "note": "for every object whose network, if any, comes from a connectivity call"
  },
  {
   "property": "C72",
   "status": "partial",
   "theorems": [
    "Dany.Rdata.C72_exact_partial",
    "Dany.Rdata.C72_refuted",
    "Dany.Rdata.C72_empty_refuted"
   ],
   "note": "false of the code; the exact condition for success is proved"
  },
  {
   "property": "C73",
   "status": "proved",
   "theorems": [
    "Dany.Rdata.C73_segment_data"
   ],
   "note": ""
  },
  {
   "property": "C74",
   "status": "partial",
   "theorems": [
    "Dany.Reach.C74_explicit_partial",
    "Dany.Reach.C74_stale",
    "Dany.Reach.C74_refuted"
   ],
   "note": "false of the code (C74_refuted); proved with an explicit get_stream_connectivity() in between"
  },
  {
   "property": "C75",
   "status": "partial",
   "theorems": [
    "Dany.Vec.C75_reconnect_partial",
    "Dany.Vec.C75_breaks",
    "Dany.Vec.C75_refuted"
   ],
   "note": "false of the code for every network with an ordinary outlet (C75_breaks); proved: get_stream_connectivity() restores the tables"
  },
  {
   "property": "C76",
   "status": "proved",
   "theorems": [
    "Dany.Casc.C76_strmseg",
    "Dany.Casc.C76_cached",
    "Dany.Prms.C76_ids"
   ],
   "note": ""
  },
  {
   "property": "C77",
   "status": "proved",
   "theorems": [
    "Dany.Store.C77_read_back"
   ],
   "note": "pickle and the file system are parameters with stated laws"
  },
  {
   "property": "C78",
   "status": "proved",
   "theorems": [
    "Dany.Rdata.C78_length"
   ],
   "note": "any field, sqrt an arbitrary function"
  },
  {
   "property": "C79",
   "status": "partial",
   "theorems": [
    "Dany.Rdata.C79_refuted",
    "Dany.Rdata.C79_first_partial"
   ],
   "note": "false of the code once a network is stored"
  },
  {
   "property": "C80",
   "status": "partial",
   "theorems": [
    "Dany.Rdata.C80_refuted",
    "Dany.Rdata.C80_refuted_concrete",
    "Dany.Rdata.C80_given_partial"
   ],
   "note": "false of the code for its own table; true for tables with outreach filled in"
  },
  {
   "property": "C81",
   "status": "proved",
   "theorems": [
    "Dany.Rdata.C81_segment_defaults"
   ],
   "note": ""
  },
  {
   "property": "C82",
   "status": "partial",
   "theorems": [
    "Dany.Ints.C82_refuted",
    "Dany.Ints.C82_large_eps_partial",
    "Dany.Ints.C82_still_partial"
   ],
   "note": "false of the code for eps < 1 and non-negative elevations: no pit of the input drains; true for eps >= 1"
  },
  {
   "property": "C83",
   "status": "proved",
   "theorems": [
    "Dany.Ints.C83_priority_is_complete",
    "Dany.Ints.C83_spill",
    "Dany.Ints.C83_negative"
   ],
   "note": "unbounded integers"
  },
  {
   "property": "C84",
   "status": "proved",
   "theorems": [
    "Dany.Nan.C84_exact"
   ],
   "note": "any ordered field instead of floats"
  },
  {
   "property": "C85",
   "status": "partial",
   "theorems": [
    "Dany.Nan.C85_raises_partial",
    "Dany.Nan.C85_refuted"
   ],
   "note": "false of the code when there is nothing to fill"
  },
  {
   "property": "C86",
   "status": "proved",
   "theorems": [
    "Dany.Nse.C86_at_most_one",
    "Dany.Nse.C86_normalised",
    "Dany.Nse.C86_mean_scores_zero",
    "Dany.Nse.C86_units",
    "Dany.Nse.C86_constant",
    "Dany.Nse.C86_no_variation",
    "Dany.Nse.C86_log",
    "Dany.Nse.C86_log_units"
   ],
   "note": "real numbers instead of floats"
  },
  {
   "property": "C87",
   "status": "partial",
   "theorems": [
    "Dany.Nse.C87_refuted",
    "Dany.Nse.C87_missing_helps_partial"
   ],
   "note": "false of the code"
  },
  {
   "property": "C88",
   "status": "proved",
   "theorems": [
    "Dany.Prms.C88_consistent",
    "Dany.Prms.C88_succeeds"
   ],
   "note": "real numbers instead of floats"
  },
  {
   "property": "C89",
   "status": "partial",
   "theorems": [
    "Dany.Prms.C89_refuted",
    "Dany.Prms.C89_refuted_concrete",
    "Dany.Prms.C89_first_partial"
   ],
   "note": "false of the code once a connectivity is stored"
  },
  {
   "property": "C90",
   "status": "proved",
   "theorems": [
    "Dany.Prms.C90_geometry"
   ],
   "note": "real numbers instead of floats"
  },
  {
   "property": "C91",
   "status": "proved",
   "theorems": [
    "Dany.Heap.C91_by_value",
    "Dany.Heap.C91_writes_invisible"
   ],
   "note": "the calculations are arbitrary functions; contiguous arrays"
  },
  {
   "property": "C92",
   "status": "partial",
   "theorems": [
    "Dany.Heap.C92_refuted",
    "Dany.Heap.C92_set_refuted",
    "Dany.Heap.C92_stream_array_partial"
   ],
   "note": "false of the code except for stream_array"
  },
  {
   "property": "C93",
   "status": "proved",
   "theorems": [
    "Dany.Heap.C93_inputs_unchanged"
   ],
   "note": "the calculations are arbitrary functions; contiguous arrays"
  },
  {
   "property": "C94",
   "status": "proved",
   "theorems": [
    "Dany.Heap.C94_streams_keep",
    "Dany.Heap.C94_made_too_early"
   ],
   "note": ""
  },
  {
   "property": "C95",
   "status": "partial",
   "theorems": [
    "Dany.Dtype.C95_tables_partial",
    "Dany.Dtype.C95_exact_partial",
    "Dany.Dtype.C95_mf6_exact_partial",
    "Dany.Dtype.C95_bool_segments_refuted",
    "Dany.Dtype.C95_bool_reaches_refuted"
   ],
   "note": "false of the code for Boolean arrays; proved for every dtype that holds the numbers exactly, and for the MODFLOW-2005 tables of every dtype"
  },
  {
   "property": "C96",
   "status": "partial",
   "theorems": [
    "Dany.Dtype.C96_nan_refuted",
    "Dany.Dtype.C96_vectors_partial"
   ],
   "note": "false of get_stream_connectivity; true of create_stream_vectors"
  },
  {
   "property": "C97",
   "status": "proved",
   "theorems": [
    "Dany.Dirs.C97_all_drain",
    "Dany.Dirs.C97_network"
   ],
   "note": "arithmetic as in C25"
  },
  {
   "property": "C98",
   "status": "partial",
   "theorems": [
    "Dany.Pipe.C98_no_circles_partial",
    "Dany.Pipe.C98_refuted",
    "Dany.Pipe.C98_where_partial"
   ],
   "note": "false of the code: an outlet lower than its neighbours but not the lowest cell flows uphill and back; true if every outlet without lower neighbour has the lowest elevation"
  },
  {
   "property": "C99",
   "status": "proved",
   "theorems": [
    "Dany.Pipe.C99_network",
    "Dany.Pipe.C99_directions",
    "Dany.Pipe.C99_accumulation",
    "Dany.Pipe.C99_watershed",
    "Dany.Pipe.C99_streams"
   ],
   "note": "arithmetic as in C25; the accumulation in exact arithmetic; double precision: C113"
  },
  {
   "property": "C104",
   "status": "partial",
   "theorems": [
    "Dany.Store.C104_interrupted_refuted",
    "Dany.Store.C104_never_wrong_partial"
   ],
   "note": "false of the code: the file is emptied first"
  },
  {
   "property": "C102",
   "status": "partial",
   "theorems": [
    "Dany.Fail.Fd.C102_refuted",
    "Dany.Fail.Fd.C102_lost_refuted",
    "Dany.Fail.Fd.C102_bad_terminal_refuted",
    "Dany.Fail.Fd.C102_silent_refuted",
    "Dany.Fail.Fd.C102_others_kept_partial",
    "Dany.Fail.Fd.C102_recovers_partial"
   ],
   "note": "false of the code: the directions are reset before the arguments are checked"
  },
  {
   "property": "C106",
   "status": "proved",
   "theorems": [
    "Dany.Fail.Fd.C106_pairs",
    "Dany.Fail.Fd.C106_in_range",
    "Dany.Fail.Fd.C106_errors",
    "Dany.Fail.Fd.C106_late_pair"
   ],
   "note": ""
  },
  {
   "property": "C107",
   "status": "partial",
   "theorems": [
    "Dany.Fail.Fd.C107_refuted",
    "Dany.Fail.Fd.C107_empty_table_refuted",
    "Dany.Fail.Fd.C107_part_table_partial",
    "Dany.Fail.Fd.C107_harmless_partial",
    "Dany.Fail.Fd.C102_recovers_partial"
   ],
   "note": "false of the code for the first delineation of a watershed"
  },
  {
   "property": "C108",
   "status": "partial",
   "theorems": [
    "Dany.Fail.Fd.C108_minus_one_refuted",
    "Dany.Fail.Fd.C108_outlet_refuted",
    "Dany.Fail.C108_from_end_partial",
    "Dany.Fail.C108_receivers_partial"
   ],
   "note": "false of the code for -1"
  },
  {
   "property": "C103",
   "status": "proved",
   "theorems": [
    "Dany.Torn.C103_all_or_nothing",
    "Dany.Torn.C103_connectivity",
    "Dany.Torn.C103_history",
    "Dany.Torn.C103_tables",
    "Dany.Torn.C103_sfr6"
   ],
   "note": ""
  },
  {
   "property": "C109",
   "status": "partial",
   "theorems": [
    "Dany.Torn.C109_refuted",
    "Dany.Torn.C109_mixed_refuted",
    "Dany.Torn.C109_sfr6_refuted",
    "Dany.Torn.C109_repair_partial",
    "Dany.Torn.C109_first_partial"
   ],
   "note": "false of the code: attributes are assigned one after another"
  },
  {
   "property": "C100",
   "status": "partial",
   "theorems": [
    "Dany.Torn.C100_refuted",
    "Dany.Torn.C100_refuted_concrete",
    "Dany.Torn.C100_failure_refuted",
    "Dany.Torn.C100_columns_partial",
    "Dany.Torn.C100_untouched_partial"
   ],
   "note": "false of the code with apply_defaults"
  },
  {
   "property": "C101",
   "status": "proved",
   "theorems": [
    "Dany.Torn.C101_idempotent"
   ],
   "note": "any ordered field instead of floats"
  },
  {
   "property": "C105",
   "status": "partial",
   "theorems": [
    "Dany.Top.C105_refuted",
    "Dany.Top.C105_refuted_concrete",
    "Dany.Top.C105_last_partial",
    "Dany.Top.C105_top_partial"
   ],
   "note": "false of the code: the constructors overwrite the top of the shared grid"
  },
  {
   "property": "C110",
   "status": "proved",
   "theorems": [
    "Dany.Float.C110_double",
    "Dany.Float.C110_never_lowers",
    "Dany.Float.C110_spill",
    "Dany.Float.C110_drains_exact"
   ],
   "note": "IEEE 754 round-to-nearest-even modelled; no overflow"
  },
  {
   "property": "C111",
   "status": "partial",
   "theorems": [
    "Dany.Float.C111_refuted",
    "Dany.Float.C111_priority_is_complete",
    "Dany.Float.C111_single_partial"
   ],
   "note": "false of the code for every float32 DEM of 64 or more; proved: it holds between -64 and 64"
  },
  {
   "property": "C112",
   "status": "proved",
   "theorems": [
    "Dany.Float.C112_drain_terminates",
    "Dany.Float.C112_drain_drains"
   ],
   "note": ""
  },
  {
   "property": "C113",
   "status": "proved",
   "theorems": [
    "Dany.Float.C113_downhill",
    "Dany.Float.C113_network",
    "Dany.Float.C113_streams",
    "Dany.Float.C113_tiny_refuted"
   ],
   "note": "C113_tiny_refuted: the lower bound on elevations is needed"
  },
  {
   "property": "C114",
   "status": "proved",
   "theorems": [
    "Dany.Float.C114_terminates",
    "Dany.Float.C114_error",
    "Dany.Float.C114_small",
    "Dany.Float.C114_exact",
    "Dany.Float.C114_counts",
    "Dany.Float.C114_grows_downstream"
   ],
   "note": "no overflow"
  },
  {
   "property": "C115",
   "status": "proved",
   "theorems": [
    "Dany.Float.C115_to_outlet",
    "Dany.Float.C115_streams"
   ],
   "note": "no overflow"
  },
  {
   "property": "C116",
   "status": "proved",
   "theorems": [
    "Dany.Float.C116_steepest"
   ],
   "note": "no overflow; sqrt64_ok shows a square root that meets the hypothesis"
  },
  {
   "property": "C117",
   "status": "proved",
   "theorems": [
    "Dany.Flood.C117_idempotent"
   ],
   "note": "exact and rounded arithmetic (raise is any inflationary monotone map)"
  },
  {
   "property": "C118",
   "status": "proved",
   "theorems": [
    "Dany.Flood.C118_priority",
    "Dany.Flood.C118_complete",
    "Dany.Flood.C118_drain",
    "Dany.Flood.C118_mask"
   ],
   "note": ""
  },
  {
   "property": "C119",
   "status": "partial",
   "theorems": [
    "Dany.Flood.C119_complete_partial",
    "Dany.Flood.C119_refuted"
   ],
   "note": "false of the code for 'priority': a hollow in the stream rises by eps with every call; true for 'complete'"
  },
  {
   "property": "C120",
   "status": "proved",
   "theorems": [
    "Dany.Flood.C120_converted",
    "Dany.Flood.C120_datum",
    "Dany.Flood.C120_datum_drain"
   ],
   "note": "exact arithmetic"
  },
  {
   "property": "C121",
   "status": "proved",
   "theorems": [
    "Dany.Flood.C121_least",
    "Dany.Flood.C121_methods"
   ],
   "note": ""
  },
  {
   "property": "C122",
   "status": "proved",
   "theorems": [
    "Dany.Flood.C122_complete",
    "Dany.Flood.C122_priority",
    "Dany.Flood.C118_drain",
    "Dany.Flood.C122_priority_raises"
   ],
   "note": "C122_priority_raises: a run in which 'priority' does raise such a cell"
  },
  {
   "property": "C123",
   "status": "proved",
   "theorems": [
    "Dany.Flood.C123_complete",
    "Dany.Flood.C123_drain",
    "Dany.Flood.C123_priority",
    "Dany.Flood.C123_priority_differs"
   ],
   "note": "C123_priority_differs: a run with different results"
  },
  {
   "property": "C124",
   "status": "proved",
   "theorems": [
    "Dany.Flood.C08_monotone",
    "Dany.Flood.C124_drain",
    "Dany.Flood.C124_priority",
    "Dany.Flood.C124_priority_lowers"
   ],
   "note": "C124_priority_lowers: a run in which the result is lower"
  },
  {
   "property": "C125",
   "status": "proved",
   "theorems": [
    "Dany.Flood.C125_drain",
    "Dany.Flood.C125_priority",
    "Dany.Flood.C125_priority_lowers"
   ],
   "note": "C125_priority_lowers: a run in which the result is lower; 'complete' does not use eps"
  },
  {
   "property": "C126",
   "status": "proved",
   "theorems": [
    "Dany.Basin.C126_accumulation"
   ],
   "note": "exact arithmetic"
  },
  {
   "property": "C127",
   "status": "proved",
   "theorems": [
    "Dany.Basin.C127_nested"
   ],
   "note": ""
  },
  {
   "property": "C128",
   "status": "proved",
   "theorems": [
    "Dany.Acc.C128_linear",
    "Dany.Acc.C128_exact",
    "Dany.Acc.flowAccumulationT_fst",
    "Dany.Acc.walkT_count"
   ],
   "note": "iterations of the inner loop; flowAccumulationT is the model with a counter, which flowAccumulationT_fst erases"
  },
  {
   "property": "C129",
   "status": "proved",
   "theorems": [
    "Dany.Basin.C129_union",
    "Dany.Basin.C129_area"
   ],
   "note": "exact arithmetic"
  },
  {
   "property": "C130",
   "status": "proved",
   "theorems": [
    "Dany.Flood.C130_sweeps",
    "Dany.Flood.C130_levels"
   ],
   "note": "the fuel of the model is the number of sweeps; no hypothesis on the arithmetic except x <= x + eps"
  },
  {
   "property": "C131",
   "status": "proved",
   "theorems": [
    "Dany.Reach.C131_lengths"
   ],
   "note": "exact real arithmetic"
  },
  {
   "property": "C132",
   "status": "partial",
   "theorems": [
    "Dany.Reach.C132_exact_partial",
    "Dany.Reach.C132_refuted"
   ],
   "note": "false of the code for cells that are not equilateral; the exact criterion is proved"
  },
  {
   "property": "C133",
   "status": "proved",
   "theorems": [
    "Dany.Reach.C133_detuple",
    "Dany.Reach.C133_columns"
   ],
   "note": "FloPy's get_lrc is taken to be np.unravel_index"
  },
  {
   "property": "C134",
   "status": "proved",
   "theorems": [
    "Dany.Dirs.C134_units",
    "Dany.Dirs.flowDirections_sameOrder"
   ],
   "note": "exact real arithmetic"
  },
  {
   "property": "C135",
   "status": "proved",
   "theorems": [
    "Dany.Dirs.C135_numbering",
    "Dany.Dirs.C135_value",
    "Dany.Dirs.C135_ties"
   ],
   "note": "any rounding; C135_ties shows the condition is needed"
  },
  {
   "property": "C136",
   "status": "proved",
   "theorems": [
    "Dany.Acc.C136_add",
    "Dany.Acc.C136_mul",
    "Dany.Acc.C136_mono",
    "Dany.Acc.C136_ones"
   ],
   "note": "C136_mono for any addition that keeps the order"
  },
  {
   "property": "C137",
   "status": "proved",
   "theorems": [
    "Dany.Float.C137_median_min_max",
    "Dany.Float.C137_mean",
    "Dany.Float.C137_small",
    "Dany.Float.C137_overshoot",
    "Dany.Float.C137_exact"
   ],
   "note": "round to nearest even; the order of the additions in np.nanmean is left open; overflow not modelled"
  },
  {
   "property": "C138",
   "status": "proved",
   "theorems": [
    "Dany.Nodata.C138_heap",
    "Dany.Nodata.heappop_popMin"
   ],
   "note": "heapq modelled line by line (Lib/heapq.py)"
  },
  {
   "property": "C139",
   "status": "proved",
   "theorems": [
    "Dany.Nodata.C139_nodata_kept",
    "Dany.Nodata.C139_unchanged"
   ],
   "note": ""
  },
  {
   "property": "C140",
   "status": "proved",
   "theorems": [
    "Dany.Nodata.C140_terminates"
   ],
   "note": ""
  },
  {
   "property": "C141",
   "status": "proved",
   "theorems": [
    "Dany.Nodata.C141_drains_strictly",
    "Dany.Nodata.C141_drains"
   ],
   "note": ""
  },
  {
   "property": "C142",
   "status": "partial",
   "theorems": [
    "Dany.Nodata.C142_at_least_partial",
    "Dany.Nodata.C142_refuted"
   ],
   "note": "false of the code: one NaN on the edge upsets the heap (C142_refuted); proved: never filled to less"
  },
  {
   "property": "C143",
   "status": "proved",
   "theorems": [
    "Dany.Nodata.C143_as_walls",
    "Dany.Nodata.C143_least",
    "Dany.Nodata.C143_drains",
    "Dany.Nodata.C143_terminates"
   ],
   "note": ""
  },
  {
   "property": "C144",
   "status": "partial",
   "theorems": [
    "Dany.Nodata.C144_edge_partial",
    "Dany.Nodata.C144_interior",
    "Dany.Nodata.C144_refuted"
   ],
   "note": "false of the code: nodata cells off the edge always come out at 1e10 (C144_interior); proved for the grid edge"
  },
  {
   "property": "C145",
   "status": "proved",
   "theorems": [
    "Dany.Nodata.C145_beside_nodata"
   ],
   "note": ""
  },
  {
   "property": "C146",
   "status": "proved",
   "theorems": [
    "Dany.Float.C146_slope",
    "Dany.Float.slopeG_exact"
   ],
   "note": "any odd, monotone rounding"
  },
  {
   "property": "C147",
   "status": "proved",
   "theorems": [
    "Dany.Float.C147_aspect",
    "Dany.Float.C147_360",
    "Dany.Float.pi64_nearest"
   ],
   "note": "C41 is the exact version; arctan2 is a parameter"
  },
  {
   "property": "C148",
   "status": "proved",
   "theorems": [
    "Dany.Pipe.C148_downhill",
    "Dany.Pipe.C148_no_circles",
    "Dany.Pipe.C148_chain",
    "Dany.Pipe.C148_shares"
   ],
   "note": "slopes as flow_directions computes them, any monotone rounding; the fractions are exact"
  },
  {
   "property": "C149",
   "status": "proved",
   "theorems": [
    "Dany.Pipe.C149_tables",
    "Dany.Pipe.C149_chain"
   ],
   "note": "real numbers"
  },
  {
   "property": "C150",
   "status": "partial",
   "theorems": [
    "Dany.Rdata.C150_tops_partial",
    "Dany.Rdata.C150_refuted"
   ],
   "note": "false of the code: FloPy keeps single precision; proved: tops never rise, and when they fall"
  },
  {
   "property": "C151",
   "status": "proved",
   "theorems": [
    "Dany.Fail.Fd.C151_flow",
    "Dany.Fail.Fd.C151_flow_history",
    "Dany.Torn.C151_stream",
    "Dany.Torn.C151_stream_history"
   ],
   "note": "the getters (slope, aspect, ...) are not part of the object model; they raise because None has no reshape"
  },
  {
   "property": "C152",
   "status": "proved",
   "theorems": [
    "Dany.Fail.Fd.C152_session",
    "Dany.Fail.Fd.watershed_run",
    "Dany.Fail.Fd.subbasins_run"
   ],
   "note": "directions are in range (C21); an interrupted watershed call or a recomputation after one is C107 and C37"
  },
  {
   "property": "C153",
   "status": "proved",
   "theorems": [
    "Dany.Torn.C153_prms",
    "Dany.Torn.C153_builder",
    "Dany.Torn.C153_irunbnd",
    "Dany.Torn.C153_vectors"
   ],
   "note": "links the assignment-by-assignment programs to the functions the other theorems are about"
  },
  {
   "property": "C154",
   "status": "partial",
   "theorems": [
    "Dany.Delin.C154_breaks_partial",
    "Dany.Delin.C154_continuous",
    "Dany.Delin.C154_refuted"
   ],
   "note": "false of the code; proved: exactly where the network is broken, and when it is not"
  },
  {
   "property": "C155",
   "status": "partial",
   "theorems": [
    "Dany.Delin.C155_stems_partial",
    "Dany.Delin.C155_exact",
    "Dany.Delin.C155_refuted"
   ],
   "note": "false of the code for the default threshold 0; exact stream cells and exact criterion for every threshold (C155_exact); proved for thresholds above every accumulated area"
  },
  {
   "property": "C156",
   "status": "proved",
   "theorems": [
    "Dany.Float.C156_rows",
    "Dany.Float.C156_fractions",
    "Dany.Float.C156_returns"
   ],
   "note": "sums in any association; slopes are float64 numbers or NaN"
  },
  {
   "property": "C157",
   "status": "proved",
   "theorems": [
    "Dany.Seg.C157_segments",
    "Dany.Seg.C157_limit"
   ],
   "note": ""
  },
  {
   "property": "C158",
   "status": "partial",
   "theorems": [
    "Dany.Seg.C158_repeat_partial",
    "Dany.Seg.C158_single",
    "Dany.Seg.C158_values",
    "Dany.Seg.C158_refuted",
    "Dany.Seg.C158_refuted_concrete"
   ],
   "note": "false of the code for a stream without headwater or confluence, e.g. a single outlet cell: the grouped call erases it; proved otherwise"
  },
  {
   "property": "C159",
   "status": "proved",
   "theorems": [
    "Dany.Dirs.C159_rounds",
    "Dany.Dirs.C159_twice"
   ],
   "note": ""
  },
  {
   "property": "C160",
   "status": "proved",
   "theorems": [
    "Dany.Pipe.C160_neighbours",
    "Dany.Pipe.C160_good",
    "Dany.Pipe.C160_apart",
    "Dany.Pipe.C160_fill",
    "Dany.Pipe.C160_returns",
    "Dany.Pipe.C160_chain",
    "Dany.Pipe.C160_accumulation"
   ],
   "note": "exact arithmetic; FloPy lists queen neighbours (shared vertex) as its documentation says"
  },
  {
   "property": "C161",
   "status": "proved",
   "theorems": [
    "Dany.Pipe.C161_returns",
    "Dany.Pipe.C161_hangs",
    "Dany.Pipe.C161_chain"
   ],
   "note": "exact arithmetic; FloPy lists queen neighbours (shared vertex) as its documentation says"
  },
  {
   "property": "C162",
   "status": "proved",
   "theorems": [
    "Dany.Float.C162_machine",
    "Dany.Float.C162_chain"
   ],
   "note": "centres as FloPy computes them are a hypothesis (Measured); no overflow"
  },
  {
   "property": "C163",
   "status": "partial",
   "theorems": [
    "Dany.Cache.C163_partial",
    "Dany.Cache.C163_held",
    "Dany.Cache.C163_fresh",
    "Dany.Cache.C163_still_drains",
    "Dany.Cache.C163_never_lower",
    "Dany.Cache.C163_refuted",
    "Dany.Cache.C163_refuted_concrete"
   ],
   "note": "false of the code: a stream object made first leaves side neighbours in the grid; proved otherwise. FloPy's caching is taken from its documented contract"
  },
  {
   "property": "C164",
   "status": "proved",
   "theorems": [
    "Dany.Prms.C164_coupling"
   ],
   "note": "same recursion limit for both objects"
  },
  {
   "property": "C165",
   "status": "partial",
   "theorems": [
    "Dany.Rdata.C165_partial",
    "Dany.Rdata.C165_exact",
    "Dany.Rdata.C165_refuted",
    "Dany.Rdata.C165_refuted_concrete"
   ],
   "note": "false of the code with grouped segments and an outlet flowing to itself; proved otherwise, with the exact value in all cases"
  },
  {
   "property": "C166",
   "status": "partial",
   "theorems": [
    "Dany.Seg.C166_exact",
    "Dany.Prms.C166_coupling_partial",
    "Dany.Prms.C166_claim_partial",
    "Dany.Prms.C166_refuted"
   ],
   "note": "false of the code with several self-flowing outlets; proved exactly when the numberings agree (same recursion limit for both objects)"
  },
  {
   "property": "C167",
   "status": "partial",
   "theorems": [
    "Dany.Prms.C167_same_partial",
    "Dany.Prms.C167_refuted"
   ],
   "note": "false of the code with the default arguments; proved for equal keywords"
  },
  {
   "property": "C168",
   "status": "proved",
   "theorems": [
    "Dany.Pipe.C168_sfr",
    "Dany.Pipe.C168_both",
    "Dany.Pipe.C168_structured"
   ],
   "note": "C168_structured is the whole chain from the DEM on in exact arithmetic"
  },
  {
   "property": "C169",
   "status": "partial",
   "theorems": [
    "Dany.Seg.C169_array",
    "Dany.Pipe.C169_exact",
    "Dany.Pipe.C169_partial",
    "Dany.Pipe.C169_refuted",
    "Dany.Pipe.C169_cascades_refuted",
    "Dany.Pipe.C169_refuted_concrete"
   ],
   "note": "false of the code for an outlet that is the only stream cell of its river; the exact value is proved, and the property otherwise"
  },
  {
   "property": "C170",
   "status": "partial",
   "theorems": [
    "Dany.Pipe.C170_unique",
    "Dany.Pipe.C170_balance",
    "Dany.Pipe.C170_exact",
    "Dany.Pipe.C170_partial",
    "Dany.Pipe.C170_chain_partial",
    "Dany.Pipe.C170_refuted",
    "Dany.Pipe.C170_refuted_concrete",
    "Dany.Pipe.C170_one_exact",
    "Dany.Pipe.C170_one_partial",
    "Dany.Pipe.C170_one_refuted",
    "Dany.Pipe.C170_one_concrete"
   ],
   "note": "false of the code for both kinds of cascades; exact accounts proved; slopes in any monotone rounding, fractions exact; fewer than 100 neighbours per cell"
  },
  {
   "property": "C171",
   "status": "proved",
   "theorems": [
    "Dany.Basin.C171_order",
    "Dany.Basin.C171_exception"
   ],
   "note": "C171_order covers every direction array; the cells of the points are given (FloPy's intersect)"
  },
  {
   "property": "C172",
   "status": "proved",
   "theorems": [
    "Dany.Basin.C172_refine",
    "Dany.Basin.C172_stay"
   ],
   "note": "points in cell 0 excluded (C38)"
  },
  {
   "property": "C173",
   "status": "proved",
   "theorems": [
    "Dany.Dirs.C173_steepest",
    "Dany.Dirs.C173_same",
    "Dany.Dirs.C173_small",
    "Dany.Dirs.C173_ties",
    "Dany.Pipe.C173_filled"
   ],
   "note": "C173_ties: the condition on ties at terminal cells is needed"
  },
  {
   "property": "C174",
   "status": "proved",
   "theorems": [
    "Dany.Flood.C174_complete",
    "Dany.Flood.C174_drain",
    "Dany.Flood.C174_priority",
    "Dany.Flood.C174_priority_magnifies"
   ],
   "note": "C174_priority_magnifies: the eps term is needed"
  },
  {
   "property": "C175",
   "status": "proved",
   "theorems": [
    "Dany.Basin.C175_single"
   ],
   "note": ""
  },
  {
   "property": "C176",
   "status": "proved",
   "theorems": [
    "Dany.Acc.C176_reroute"
   ],
   "note": ""
  },
  {
   "property": "C177",
   "status": "proved",
   "theorems": [
    "Dany.Seg.C177_same"
   ],
   "note": ""
  },
  {
   "property": "C178",
   "status": "proved",
   "theorems": [
    "Dany.Geom.C178_area",
    "Dany.Geom.C178_slope",
    "Dany.Geom.C178_hru_len",
    "Dany.Geom.C178_aspect",
    "Dany.Geom.C178_slope_cut",
    "Dany.Pipe.C178_chain"
   ],
   "note": "C178_slope_cut: the condition about the 1e-6 cut-off is needed"
  },
  {
   "property": "C179",
   "status": "proved",
   "theorems": [
    "Dany.Reach.C179_packagedata",
    "Dany.Reach.C179_side",
    "Dany.Rdata.C179_reach_data"
   ],
   "note": ""
  },
  {
   "property": "C180",
   "status": "proved",
   "theorems": [
    "Dany.Nan.C180_units",
    "Dany.Nan.C180_monotone",
    "Dany.Nan.C180_error",
    "Dany.Nan.C180_chain"
   ],
   "note": ""
  },
  {
   "property": "C181",
   "status": "proved",
   "theorems": [
    "Dany.Prms.C181_scaled",
    "Dany.Prms.C181_cascades",
    "Dany.Prms.C181_builder"
   ],
   "note": ""
  },
  {
   "property": "C182",
   "status": "proved",
   "theorems": [
    "Dany.Pipe.C182_streams",
    "Dany.Pipe.C182_mf6",
    "Dany.Pipe.C182_mf2005"
   ],
   "note": ""
  },
  {
   "property": "C183",
   "status": "proved",
   "theorems": [
    "Dany.Pipe.C183_streams",
    "Dany.Pipe.C183_mf6",
    "Dany.Pipe.C183_confluences",
    "Dany.Pipe.C183_count",
    "Dany.Pipe.C183_merge"
   ],
   "note": ""
  },
  {
   "property": "C184",
   "status": "proved",
   "theorems": [
    "Dany.Pipe.C184_subbasins",
    "Dany.Pipe.C184_areas"
   ],
   "note": "streams the water does not come back to after leaving them, for the areas; pour points are given as cells"
  },
  {
   "property": "C185",
   "status": "partial",
   "theorems": [
    "Dany.Pipe.C185_partial",
    "Dany.Pipe.C185_refuted"
   ],
   "note": "false of the code if the outlet flows on to a cell outside the watershed"
  },
  {
   "property": "C186",
   "status": "proved",
   "theorems": [
    "Dany.Float.C186_balance",
    "Dany.Float.C186_chain"
   ],
   "note": "the routing itself is exact; fewer than 100 neighbours per cell; overflow not modelled"
  },
  {
   "property": "C187",
   "status": "proved",
   "theorems": [
    "Dany.Flood.C187_complete",
    "Dany.Flood.C187_drain",
    "Dany.Flood.C187_priority",
    "Dany.Flood.C187_priority_differs"
   ],
   "note": ""
  },
  {
   "property": "C188",
   "status": "proved",
   "theorems": [
    "Dany.Dirs.C188_flows",
    "Dany.Dirs.C188_noties",
    "Dany.Dirs.C188_local",
    "Dany.Dirs.C188_ties"
   ],
   "note": ""
  },
  {
   "property": "C189",
   "status": "proved",
   "theorems": [
    "Dany.Pipe.C189_watershed",
    "Dany.Pipe.C189_accumulation"
   ],
   "note": ""
  },
  {
   "property": "C190",
   "status": "proved",
   "theorems": [
    "Dany.Pipe.C190_accumulation",
    "Dany.Pipe.C190_watershed",
    "Dany.Pipe.C190_streams",
    "Dany.Pipe.C190_mf6"
   ],
   "note": ""
  },
  {
   "property": "C191",
   "status": "proved",
   "theorems": [
    "Dany.Pipe.C191_segments"
   ],
   "note": ""
  },
  {
   "property": "C192",
   "status": "proved",
   "theorems": [
    "Dany.Flood.C192_spill",
    "Dany.Flood.C192_overfill",
    "Dany.Flood.C192_kept",
    "Dany.Flood.C192_lifted"
   ],
   "note": ""
  },
  {
   "property": "C193",
   "status": "proved",
   "theorems": [
    "Dany.Flood.C193_outlets"
   ],
   "note": ""
  },
  {
   "property": "C194",
   "status": "proved",
   "theorems": [
    "Dany.Flood.C194_monotone",
    "Dany.Flood.C194_stable",
    "Dany.Flood.C194_local",
    "Dany.Flood.C194_lowers"
   ],
   "note": ""
  },
  {
   "property": "C195",
   "status": "proved",
   "theorems": [
    "Dany.Pipe.C195_subbasins",
    "Dany.Pipe.C195_cascades"
   ],
   "note": ""
  },
  {
   "property": "C196",
   "status": "partial",
   "theorems": [
    "Dany.Pipe.C196_one_segment_partial",
    "Dany.Pipe.C196_refuted"
   ],
   "note": "false of the code: of several segments downstream the one with the lowest cell number is taken; true with one segment downstream"
  },
  {
   "property": "C197",
   "status": "partial",
   "theorems": [
    "Dany.Pipe.C197_cascades_partial",
    "Dany.Pipe.C197_refuted"
   ],
   "note": "false of the code: links to cells that drain into cell number 0 are dropped; true if the same cells drain there in both numberings"
  },
  {
   "property": "C198",
   "status": "proved",
   "theorems": [
    "Dany.Pipe.C198_directions",
    "Dany.Pipe.C198_draining",
    "Dany.Pipe.C198_watershed",
    "Dany.Pipe.C198_accumulation"
   ],
   "note": ""
  },
  {
   "property": "C199",
   "status": "proved",
   "theorems": [
    "Dany.Float.C199_same",
    "Dany.Float.C199_breaks",
    "Dany.Float.C199_continuous"
   ],
   "note": "integers beyond int64 are not modelled"
  },
  {
   "property": "C200",
   "status": "proved",
   "theorems": [
    "Dany.Float.C200_returns_iff",
    "Dany.Float.C200_gaps",
    "Dany.Float.C200_chain"
   ],
   "note": "centres as FloPy computes them are a hypothesis (Measured); no overflow"
  },
  {
   "property": "C201",
   "status": "proved",
   "theorems": [
    "Dany.Dirs.C201_cell",
    "Dany.Dirs.C201_directions",
    "Dany.Pipe.C201_filled",
    "Dany.Dirs.C201_margin"
   ],
   "note": "exact arithmetic"
  },
  {
   "property": "C202",
   "status": "proved",
   "theorems": [
    "Dany.Reach.C202_ncon"
   ],
   "note": ""
  },
  {
   "property": "C203",
   "status": "proved",
   "theorems": [
    "Dany.Pipe.C203_packagedata",
    "Dany.Pipe.C203_reach_data"
   ],
   "note": ""
  },
  {
   "property": "C204",
   "status": "proved",
   "theorems": [
    "Dany.Rdata.C204_reach_data",
    "Dany.Rdata.C204_builder"
   ],
   "note": "exact arithmetic"
  },
  {
   "property": "C205",
   "status": "proved",
   "theorems": [
    "Dany.Pipe.C205_fill",
    "Dany.Pipe.C205_chain",
    "Dany.Pipe.C205_mirrors",
    "Dany.Pipe.C205_priority",
    "Dany.Pipe.C205_priority_differs"
   ],
   "note": "exact arithmetic; method priority is excluded because it is false there (C205_priority_differs)"
  },
  {
   "property": "C206",
   "status": "proved",
   "theorems": [
    "Dany.Pipe.C206_runoff",
    "Dany.Pipe.C206_rivers"
   ],
   "note": "exact arithmetic"
  },
  {
   "property": "C207",
   "status": "proved",
   "theorems": [
    "Dany.Pipe.C207_reaches"
   ],
   "note": "real numbers instead of floats"
  },
  {
   "property": "C208",
   "status": "proved",
   "theorems": [
    "Dany.Pipe.C208_chain",
    "Dany.Pipe.C208_general",
    "Dany.Pipe.C208_turns"
   ],
   "note": "exact arithmetic; grids without ties"
  },
  {
   "property": "C209",
   "status": "proved",
   "theorems": [
    "Dany.Pipe.C209_directions",
    "Dany.Pipe.C209_watershed",
    "Dany.Pipe.C209_no_circles",
    "Dany.Pipe.C209_accumulation",
    "Dany.Pipe.C209_streams",
    "Dany.Pipe.C209_structured"
   ],
   "note": "exact arithmetic; grids without ties"
  },
  {
   "property": "C210",
   "status": "proved",
   "theorems": [
    "Dany.Flood.C210_complete",
    "Dany.Flood.C210_drain",
    "Dany.Flood.C210_priority",
    "Dany.Flood.C210_priority_differs",
    "Dany.Flood.C210_filled",
    "Dany.Flood.C210_mask",
    "Dany.Pipe.C210_structured",
    "Dany.Pipe.C210_rect",
    "Dany.Pipe.C210_rect_filled"
   ],
   "note": ""
  },
  {
   "property": "C211",
   "status": "proved",
   "theorems": [
    "Dany.Pipe.C211_sfr",
    "Dany.Pipe.C211_both",
    "Dany.Pipe.C211_pruned",
    "Dany.Pipe.C211_thresholds",
    "Dany.Pipe.C211_double",
    "Dany.Pipe.C211_structured",
    "Dany.Pipe.C211_concrete"
   ],
   "note": ""
  },
  {
   "property": "C212",
   "status": "partial",
   "theorems": [
    "Dany.Pipe.C212_sfr_partial",
    "Dany.Pipe.C212_both_partial",
    "Dany.Pipe.C212_watershed_partial",
    "Dany.Pipe.C212_refuted",
    "Dany.Pipe.C212_irunbnd",
    "Dany.Pipe.C212_concrete"
   ],
   "note": "false of the code: KeyError if a segment of two or more reaches ends in the column whose number is the number of segments (C72); exact condition and everything else proved"
  },
  {
   "property": "C213",
   "status": "proved",
   "theorems": [
    "Dany.Float.C213_id",
    "Dany.Float.C213_patch",
    "Dany.Float.C213_exact",
    "Dany.Float.C213_metres",
    "Dany.Float.C213_error",
    "Dany.Float.C213_utm",
    "Dany.Float.C213_streams",
    "Dany.Float.C213_far_refuted",
    "Dany.Float.C213_equal_refuted",
    "Dany.Float.C213_concrete"
   ],
   "note": ""
  },
  {
   "property": "C214",
   "status": "proved",
   "theorems": [
    "Dany.Rdata.C214_rows",
    "Dany.Rdata.C214_values",
    "Dany.Rdata.C214_length",
    "Dany.Rdata.C214_slope",
    "Dany.Rdata.C214_table",
    "Dany.Rdata.C214_default"
   ],
   "note": ""
  },
  {
   "property": "C215",
   "status": "proved",
   "theorems": [
    "Dany.Reach.C215_values",
    "Dany.Reach.C215_length",
    "Dany.Reach.C215_gradient",
    "Dany.Reach.C215_outlet",
    "Dany.Reach.C215_table",
    "Dany.Reach.tableE"
   ],
   "note": ""
  },
  {
   "property": "C216",
   "status": "proved",
   "theorems": [
    "Dany.Rdata.C216_rows",
    "Dany.Rdata.C216_limits",
    "Dany.Rdata.C216_below",
    "Dany.Rdata.C216_own",
    "Dany.Rdata.C216_slope",
    "Dany.Rdata.C216_table",
    "Dany.Rdata.C216_segments",
    "Dany.Rdata.C216_again",
    "Dany.Rdata.builderR"
   ],
   "note": ""
  },
  {
   "property": "C217",
   "status": "proved",
   "theorems": [
    "Dany.Nse.C217_range",
    "Dany.Nse.C217_number",
    "Dany.Nse.C217_perfect",
    "Dany.Nse.C217_one",
    "Dany.Nse.C217_mean",
    "Dany.Nse.C217_closer",
    "Dany.Nse.C217_missing",
    "Dany.Nse.C217_constant",
    "Dany.Nse.C217_constant_refuted",
    "Dany.Nse.C217_error",
    "Dany.Nse.C217_concrete"
   ],
   "note": ""
  },
  {
   "property": "C218",
   "status": "proved",
   "theorems": [
    "Dany.Irun.C218_time",
    "Dany.Irun.C218_linear",
    "Dany.Irun.C218_quadratic"
   ],
   "note": ""
  },
  {
   "property": "C219",
   "status": "proved",
   "theorems": [
    "Dany.Basin.C219_watershed",
    "Dany.Basin.C219_linear",
    "Dany.Basin.C219_quadratic",
    "Dany.Basin.C219_subbasins",
    "Dany.Basin.C219_table"
   ],
   "note": ""
  },
  {
   "property": "C220",
   "status": "proved",
   "theorems": [
    "Dany.Basin.C220_bound",
    "Dany.Basin.C220_cubic"
   ],
   "note": ""
  },
  {
   "property": "C221",
   "status": "proved",
   "theorems": [
    "Dany.Flood.C221_time",
    "Dany.Flood.C221_linear"
   ],
   "note": ""
  },
  {
   "property": "C222",
   "status": "proved",
   "theorems": [
    "Dany.Topo.C222_time",
    "Dany.Topo.C222_quadratic",
    "Dany.Topo.C222_river"
   ],
   "note": ""
  },
  {
   "property": "C223",
   "status": "proved",
   "theorems": [
    "Dany.Seg.C223_time",
    "Dany.Seg.C223_quadratic"
   ],
   "note": ""
  }
 ]
}