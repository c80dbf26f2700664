c("C01", P, [F+"C01_never_lowers"], "all methods, any linear order of elevations, any inflationary x+eps")
c("C02", P, [F+"C02_edges_unchanged"])
c("C03", P, [F+"C03_drains_strictly", F+"C03_complete_drains", F+"C03_drain_drains"])
c("C04", P, [F+"C04_disconnected"])
c("C05", P, [F+"C05_terminates", F+"C05_visits_once"])
c("C06", P, [F+"C06_spill"])
c("C07", P, [F+"C07_idempotent"])
c("C08", P, [F+"C08_monotone"])
c("C09", P, [F+"C09_overfill"])
c("C10", P, [F+"C10_drain_least", F+"C10_renumber"])
c("C11", P, [F+"C11_drain_terminates", F+"C11_drain_terminates_rat"])
c("C12", P, [F+"C12_drain_eq_complete"])
c("C13", P, [F+"C13_stream_mask_drains"])
c("C14", PA, [F+"C14_stream_pits_partial", F+"C14_complete", F+"C14_refuted"], "false of the code for eps > 0 (C14_refuted); proved: pits are at most one eps deep, and none with 'complete'")
c("C15", P, [E+"C15_edge_nodes", E+"C15_total", E+"C15_presentation"])
c("C16", P, [E+"C16_structured_edge"], "vertex numbering of FloPy's StructuredGrid is an input of the model")
c("C17", P, [F+"C17_mask", F+"C17_case", F+"C17_complete_ignores_eps", F+"C17_drain"])
X="Dany.Nan."
c("C18", P, [X+"C18_keeps_valid"])
c("C19", P, [X+"C19_range"])
c("C20", PA, [X+"C20_terminates_partial", X+"C20_diverges", X+"C20_exact", X+"C20_refuted"], "the property as stated is false of the code (C20_refuted); proved instead: the exact criterion for termination")
PR="Dany.Prms."
A="Dany.Acc."
c("C30", P, [A+"C30_nidp"])
c("C31", P, [A+"C31_terminates"])
c("C32", P, [A+"C32_upstream_sum"])
c("C33", P, [A+"C33_conservation"])
c("C34", P, [A+"C34_grows_downstream", A+"C34_counts_grow"])
c("C35", PA, [A+"C35_sinks_partial", A+"C35_refuted"], "false of the code on every grid with at least three cells (C35_refuted); proved: the area of a sink reaches exactly the path of cell N-2")
TO="Dany.Topo."
c("C46", P, [TO+"C46_permutation", TO+"C46_succeeds", TO+"C46_limit"], "for every recursion limit: RecursionError or the permutation; no RecursionError if the limit covers the longest flow path; the limit never changes a returned value")
c("C47", P, [TO+"C47_upstream_first"])
c("C48", PA, [TO+"C48_short_partial", TO+"C48_few_partial", TO+"C48_river_partial", TO+"C48_refuted"], "false of the code for every recursion limit (C48_refuted); proved for networks whose flow paths are not longer than the limit, however many segments")
BA="Dany.Basin."
c("C36", P, [BA+"C36_watershed", BA+"C36_repeated"])
c("C37", PA, [BA+"C37_follows_partial", BA+"C37_exact", BA+"C37_last", BA+"C37_old", BA+"C37_refuted"], "false of the code: the reversed table is cached forever (C37_refuted); proved: harmless when the directions are unchanged or nothing was cached, and exactly which cells are found otherwise (C37_exact): the old watershed if the inflow counts are unchanged, the last cell of the grid on top of it where they grow")
c("C38", P, [BA+"C38_subbasins", BA+"C38_limit", BA+"C38_returned"])
c("C39", PA, [BA+"C39_other_cells_partial", BA+"C39_refuted", BA+"C39_raises", BA+"C39_always_raises", BA+"C39_ignored"], "false of the code for a pour point in cell 0 (C39_refuted, C39_raises); proved for all other cells; exact behaviour with a point in cell 0: an exception always if water of another point reaches cell 0 (C39_always_raises), otherwise the point is ignored (C39_ignored)")
RE="Dany.Reach."
c("C49", P, [RE+"C49_reach_numbers", RE+"C49_numbering"])
c("C50", P, [RE+"C50_downstream"])
c("C51", P, [RE+"C51_repeatable", RE+"C51_object"])
c("C52", P, [RE+"C52_connectiondata"])
c("C53", P, [RE+"C53_signs", RE+"C53_reciprocal", RE+"C53_network", RE+"C53_ambiguous"])
c("C54", P, [RE+"C54_packagedata"], "constant columns and FloPy's node-to-(layer,row,column) conversion are not modelled; the mean side length used at outlets is an input")
c("C55", PA, [RE+"C55_numbered_partial", RE+"C55_refuted", RE+"C55_refuted_concrete"], "false of the code for every binary array with two or more stream cells (C55_refuted)")
c("C74", PA, [RE+"C74_explicit_partial", RE+"C74_stale", RE+"C74_refuted"], "false of the code (C74_refuted); proved with an explicit get_stream_connectivity() in between")
SE="Dany.Seg."
c("C56", P, [SE+"C56_partition", SE+"C56_rows", SE+"C56_terminates", SE+"C56_any_limit", SE+"C56_cycle_unlisted"])
c("C57", P, [SE+"C57_starts", SE+"C57_outseg"])
c("C58", P, [SE+"C58_numbers", SE+"C58_downstream", SE+"C58_cells"])
c("C59", P, [SE+"C59_ungrouped", SE+"C59_limit"])
c("C60", PA, [SE+"C60_partial", SE+"C60_refuted"], "false of the code on every unstructured grid with two or more cells (C60_refuted); proved for structured and vertex grids")
VE="Dany.Vec."
c("C67", P, [VE+"C67_vectors", VE+"C67_omitted", VE+"C67_flow_order", VE+"C67_complete"], "vertices are the images of the cells under an arbitrary function (the centre coordinates)")
c("C75", PA, [VE+"C75_reconnect_partial", VE+"C75_breaks", VE+"C75_refuted"], "false of the code for every network with an ordinary outlet (C75_breaks); proved: get_stream_connectivity() restores the tables")
CA="Dany.Casc."
c("C61", PA, [CA+"C61_multiplicity_partial", CA+"C61_once_iff", CA+"C61_refuted"], "false of the code: a cell is listed once per active cell flowing to the same place (C61_refuted); proved: the exact multiplicity, and that it is one for every cell exactly when the directions are injective")
c("C62", P, [CA+"C62_links", CA+"C62_no_boundary", CA+"C62_succeeds"])
c("C63", PA, [CA+"C63_rows_partial", CA+"C63_rows_none", CA+"C63_fractions_partial", CA+"C63_refuted"], "false of the code exactly when every lower neighbour inside the boundary drains into cell 0 and none is outside (C63_rows_none, C63_refuted); proved otherwise")
c("C64", PA, [CA+"C64_rows_partial", CA+"C64_rows_leave", CA+"C64_links_partial", CA+"C64_leaves", CA+"C64_refuted"], "false of the code at the basin boundary (C64_leaves, C64_refuted)")
c("C76", P, [CA+"C76_strmseg", CA+"C76_cached", PR+"C76_ids"])
IR="Dany.Irun."
c("C65", P, [IR+"C65_path", IR+"C65_object", IR+"C65_given"])
c("C66", PA, [IR+"C66_exact_partial", IR+"C66_first_partial", IR+"C66_refuted", IR+"C66_refuted_concrete", IR+"C66_refuted_stream"], "false of the code on every network in which land drains into the last cell of a segment that flows on (C66_refuted); proved: the exact value of every cell")
DE="Dany.Delin."
c("C44", P, [DE+"C44_number", DE+"C44_arrays", DE+"C44_exact", DE+"C44_sizes", DE+"C44_monotone"])
c("C45", P, [DE+"C45_areas", DE+"C45_counts", DE+"C45_to_outlet"])
c("C68", P, [DE+"C68_stems", DE+"C68_delineated", DE+"C68_contains", DE+"C68_diverges"], "FloPy's point location is an input")
DI="Dany.Dirs."
c("C21", PA, [DI+"C21_values", DI+"C21_legal_partial", DI+"C21_refuted"], "false of the code: a cell whose neighbours all lack an elevation can get the number N (C21_refuted); proved: nothing else can happen (C21_values), and the claim if every valid cell has a valid neighbour; fewer than 10^6 cells")
c("C22", P, [DI+"C22_steepest"])
c("C23", PA, [DI+"C23_terminal_partial", DI+"C23_refuted"], "false of the code (C23_refuted); proved for terminal cells whose ties are easy: a cell that is not terminal and has the terminal cell among its steepest neighbours has at most three of these, any two of them neighbours")
c("C24", P, [DI+"C24_nan"])
c("C25", P, [DI+"C25_downhill", DI+"C25_no_return"], "fewer than 10^6 cells; any rounding that keeps the order and loses no fall between neighbours (exact arithmetic with positive distances is one); double precision: C113")
c("C26", P, [DI+"C26_terminates", DI+"C26_isolated_raises", DI+"C26_alone"], "elevations and slopes below the fill value 1e10; also covers NaN cells; C26_isolated_raises shows the neighbour hypothesis is needed")
c("C27", P, [DI+"C27_fill_then_route", DI+"C27_reaches_edge"], "arithmetic as in C25")
c("C28", P, [DI+"C28_outlet_check"])
c("C29", P, [DI+"C29_history_independent"])
GE="Dany.Geom."
c("C40", P, [GE+x for x in ["C40_nonneg","C40_patch","C40_translate","C40_start","C40_reverse","C40_cut","C40_triangle","C40_rectangle"]], "any ordered field instead of floats")
c("C41", P, [GE+"C41_aspect", GE+"C41_vectors"], "real numbers instead of floats; a cell flowing to itself gets aspect 0 and vector (1, 0)")
c("C42", P, [GE+"C42_slope"], "real numbers instead of floats")
c("C43", P, [GE+"C43_hru_len", GE+"C43_nonneg", GE+"C43_uniform"], "real numbers instead of floats")
RD="Dany.Rdata."
c("C69", PA, [RD+"C69_refuted", RD+"C69_none_partial", RD+"C69_refuted_concrete"], "false of the code: every keyword other than group_segments raises")
c("C70", P, [RD+"C70_limits"], "any ordered field instead of floats; default limits, since no keyword can change them (C69)")
c("C71", P, [RD+"C71_numbering"], "for every object whose network, if any, comes from a connectivity call")
c("C72", PA, [RD+"C72_exact_partial", RD+"C72_refuted", RD+"C72_empty_refuted"], "false of the code; the exact condition for success is proved")
c("C73", P, [RD+"C73_segment_data"])
ST="Dany.Store."
c("C77", P, [ST+"C77_read_back"], "pickle and the file system are parameters with stated laws")
c("C78", P, [RD+"C78_length"], "any field, sqrt an arbitrary function")
c("C79", PA, [RD+"C79_refuted", RD+"C79_first_partial"], "false of the code once a network is stored")
c("C80", PA, [RD+"C80_refuted", RD+"C80_refuted_concrete", RD+"C80_given_partial"], "false of the code for its own table; true for tables with outreach filled in")
c("C81", P, [RD+"C81_segment_defaults"])
IN="Dany.Ints."
c("C82", PA, [IN+"C82_refuted", IN+"C82_large_eps_partial", IN+"C82_still_partial"], "false of the code for eps < 1 and non-negative elevations: no pit of the input drains; true for eps >= 1")
c("C83", P, [IN+"C83_priority_is_complete", IN+"C83_spill", IN+"C83_negative"], "unbounded integers")
c("C84", P, [X+"C84_exact"], "any ordered field instead of floats")
c("C85", PA, [X+"C85_raises_partial", X+"C85_refuted"], "false of the code when there is nothing to fill")
NS="Dany.Nse."
c("C86", P, [NS+"C86_at_most_one", NS+"C86_normalised", NS+"C86_mean_scores_zero", NS+"C86_units", NS+"C86_constant", NS+"C86_no_variation", NS+"C86_log", NS+"C86_log_units"], "real numbers instead of floats")
c("C87", PA, [NS+"C87_refuted", NS+"C87_missing_helps_partial"], "false of the code")

c("C88", P, [PR+"C88_consistent", PR+"C88_succeeds"], "real numbers instead of floats")
c("C89", PA, [PR+"C89_refuted", PR+"C89_refuted_concrete", PR+"C89_first_partial"], "false of the code once a connectivity is stored")
c("C90", P, [PR+"C90_geometry"], "real numbers instead of floats")
HE="Dany.Heap."
c("C91", P, [HE+"C91_by_value", HE+"C91_writes_invisible"], "the calculations are arbitrary functions; contiguous arrays")
c("C92", PA, [HE+"C92_refuted", HE+"C92_set_refuted", HE+"C92_stream_array_partial"], "false of the code except for stream_array")
c("C93", P, [HE+"C93_inputs_unchanged"], "the calculations are arbitrary functions; contiguous arrays")
c("C94", P, [HE+"C94_streams_keep", HE+"C94_made_too_early"])
DT="Dany.Dtype."
c("C95", PA, [DT+x for x in ["C95_tables_partial","C95_exact_partial","C95_mf6_exact_partial","C95_bool_segments_refuted","C95_bool_reaches_refuted"]], "false of the code for Boolean arrays; proved for every dtype that holds the numbers exactly, and for the MODFLOW-2005 tables of every dtype")
c("C96", PA, [DT+"C96_nan_refuted", DT+"C96_vectors_partial"], "false of get_stream_connectivity; true of create_stream_vectors")
c("C97", P, [DI+"C97_all_drain", DI+"C97_network"], "arithmetic as in C25")
PI="Dany.Pipe."
c("C98", PA, [PI+"C98_no_circles_partial", PI+"C98_refuted", PI+"C98_where_partial"], "false of the code: an outlet lower than its neighbours but not the lowest cell flows uphill and back; true if every outlet without lower neighbour has the lowest elevation")
c("C99", P, [PI+x for x in ["C99_network","C99_directions","C99_accumulation","C99_watershed","C99_streams"]], "arithmetic as in C25; the accumulation in exact arithmetic; double precision: C113")
c("C104", PA, [ST+"C104_interrupted_refuted", ST+"C104_never_wrong_partial"], "false of the code: the file is emptied first")
FA="Dany.Fail.Fd."
c("C102", PA, [FA+x for x in ["C102_refuted","C102_lost_refuted","C102_bad_terminal_refuted","C102_silent_refuted","C102_others_kept_partial","C102_recovers_partial"]], "false of the code: the directions are reset before the arguments are checked")
c("C106", P, [FA+"C106_pairs", FA+"C106_in_range", FA+"C106_errors", FA+"C106_late_pair"])
c("C107", PA, [FA+x for x in ["C107_refuted","C107_empty_table_refuted","C107_part_table_partial","C107_harmless_partial"]]+[FA+"C102_recovers_partial"], "false of the code for the first delineation of a watershed")
c("C108", PA, [FA+"C108_minus_one_refuted", FA+"C108_outlet_refuted", "Dany.Fail.C108_from_end_partial", "Dany.Fail.C108_receivers_partial"], "false of the code for -1")
TN="Dany.Torn."
c("C103", P, [TN+x for x in ["C103_all_or_nothing","C103_connectivity","C103_history","C103_tables","C103_sfr6"]])
c("C109", PA, [TN+x for x in ["C109_refuted","C109_mixed_refuted","C109_sfr6_refuted","C109_repair_partial","C109_first_partial"]], "false of the code: attributes are assigned one after another")
c("C100", PA, [TN+x for x in ["C100_refuted","C100_refuted_concrete","C100_failure_refuted","C100_columns_partial","C100_untouched_partial"]], "false of the code with apply_defaults")
c("C101", P, [TN+"C101_idempotent"], "any ordered field instead of floats")
TP="Dany.Top."
c("C105", PA, [TP+x for x in ["C105_refuted","C105_refuted_concrete","C105_last_partial","C105_top_partial"]], "false of the code: the constructors overwrite the top of the shared grid")
FL="Dany.Float."
c("C110", P, [FL+"C110_double", FL+"C110_never_lowers", FL+"C110_spill", FL+"C110_drains_exact"], "IEEE 754 round-to-nearest-even modelled; no overflow")
c("C111", PA, [FL+"C111_refuted", FL+"C111_priority_is_complete", FL+"C111_single_partial"], "false of the code for every float32 DEM of 64 or more; proved: it holds between -64 and 64")
c("C112", P, [FL+"C112_drain_terminates", FL+"C112_drain_drains"])
c("C113", P, [FL+x for x in ["C113_downhill","C113_network","C113_streams","C113_tiny_refuted"]], "C113_tiny_refuted: the lower bound on elevations is needed")
c("C114", P, [FL+x for x in ["C114_terminates","C114_error","C114_small","C114_exact","C114_counts","C114_grows_downstream"]], "no overflow")
c("C115", P, [FL+x for x in ["C115_to_outlet","C115_streams"]], "no overflow")
c("C116", P, [FL+"C116_steepest"], "no overflow; sqrt64_ok shows a square root that meets the hypothesis")
c("C117", P, [F+"C117_idempotent"], "exact and rounded arithmetic (raise is any inflationary monotone map)")
c("C118", P, [F+x for x in ["C118_priority","C118_complete","C118_drain","C118_mask"]])
c("C119", PA, [F+"C119_complete_partial", F+"C119_refuted"], "false of the code for 'priority': a hollow in the stream rises by eps with every call; true for 'complete'")
c("C120", P, [F+"C120_converted", F+"C120_datum", F+"C120_datum_drain"], "exact arithmetic")
c("C121", P, [F+"C121_least", F+"C121_methods"])
c("C122", P, [F+"C122_complete", F+"C122_priority", F+"C118_drain", F+"C122_priority_raises"], "C122_priority_raises: a run in which 'priority' does raise such a cell")
c("C123", P, [F+x for x in ["C123_complete","C123_drain","C123_priority","C123_priority_differs"]], "C123_priority_differs: a run with different results")
c("C124", P, [F+x for x in ["C08_monotone","C124_drain","C124_priority","C124_priority_lowers"]], "C124_priority_lowers: a run in which the result is lower")
c("C125", P, [F+x for x in ["C125_drain","C125_priority","C125_priority_lowers"]], "C125_priority_lowers: a run in which the result is lower; 'complete' does not use eps")
c("C126", P, [BA+"C126_accumulation"], "exact arithmetic")
c("C127", P, [BA+"C127_nested"])
c("C128", P, [A+"C128_linear", A+"C128_exact", A+"flowAccumulationT_fst", A+"walkT_count"], "iterations of the inner loop; flowAccumulationT is the model with a counter, which flowAccumulationT_fst erases")
c("C129", P, [BA+"C129_union", BA+"C129_area"], "exact arithmetic")
c("C130", P, [F+"C130_sweeps", F+"C130_levels"], "the fuel of the model is the number of sweeps; no hypothesis on the arithmetic except x <= x + eps")
c("C131", P, [RE+"C131_lengths"], "exact real arithmetic")
c("C132", PA, [RE+"C132_exact_partial", RE+"C132_refuted"], "false of the code for cells that are not equilateral; the exact criterion is proved")
c("C133", P, [RE+"C133_detuple", RE+"C133_columns"], "FloPy's get_lrc is taken to be np.unravel_index")
c("C134", P, [DI+"C134_units", DI+"flowDirections_sameOrder"], "exact real arithmetic")
c("C135", P, [DI+"C135_numbering", DI+"C135_value", DI+"C135_ties"], "any rounding; C135_ties shows the condition is needed")
c("C136", P, [A+"C136_add", A+"C136_mul", A+"C136_mono", A+"C136_ones"], "C136_mono for any addition that keeps the order")
c("C137", P, [FL+"C137_median_min_max", FL+"C137_mean", FL+"C137_small", FL+"C137_overshoot", FL+"C137_exact"], "round to nearest even; the order of the additions in np.nanmean is left open; overflow not modelled")
ND="Dany.Nodata."
c("C138", P, [ND+"C138_heap", ND+"heappop_popMin"], "heapq modelled line by line (Lib/heapq.py)")
c("C139", P, [ND+"C139_nodata_kept", ND+"C139_unchanged"])
c("C140", P, [ND+"C140_terminates"])
c("C141", P, [ND+"C141_drains_strictly", ND+"C141_drains"])
c("C142", PA, [ND+"C142_at_least_partial", ND+"C142_refuted"], "false of the code: one NaN on the edge upsets the heap (C142_refuted); proved: never filled to less")
c("C143", P, [ND+"C143_as_walls", ND+"C143_least", ND+"C143_drains", ND+"C143_terminates"])
c("C144", PA, [ND+"C144_edge_partial", ND+"C144_interior", ND+"C144_refuted"], "false of the code: nodata cells off the edge always come out at 1e10 (C144_interior); proved for the grid edge")
c("C145", P, [ND+"C145_beside_nodata"])
c("C146", P, [FL+"C146_slope", FL+"slopeG_exact"], "any odd, monotone rounding")
c("C147", P, [FL+"C147_aspect", FL+"C147_360", FL+"pi64_nearest"], "C41 is the exact version; arctan2 is a parameter")
c("C148", P, [PI+"C148_downhill", PI+"C148_no_circles", PI+"C148_chain", PI+"C148_shares"], "slopes as flow_directions computes them, any monotone rounding; the fractions are exact")
c("C149", P, [PI+"C149_tables", PI+"C149_chain"], "real numbers")
c("C150", PA, [RD+"C150_tops_partial", RD+"C150_refuted"], "false of the code: FloPy keeps single precision; proved: tops never rise, and when they fall")
c("C151", P, [FA+"C151_flow", FA+"C151_flow_history", TN+"C151_stream", TN+"C151_stream_history"], "the getters (slope, aspect, ...) are not part of the object model; they raise because None has no reshape")
c("C152", P, [FA+"C152_session", FA+"watershed_run", FA+"subbasins_run"], "directions are in range (C21); an interrupted watershed call or a recomputation after one is C107 and C37")
c("C153", P, [TN+"C153_prms", TN+"C153_builder", TN+"C153_irunbnd", TN+"C153_vectors"], "links the assignment-by-assignment programs to the functions the other theorems are about")
c("C154", PA, [DE+"C154_breaks_partial", DE+"C154_continuous", DE+"C154_refuted"], "false of the code; proved: exactly where the network is broken, and when it is not")
c("C155", PA, [DE+"C155_stems_partial", DE+"C155_exact", DE+"C155_refuted"], "false of the code for the default threshold 0; exact stream cells and exact criterion for every threshold (C155_exact); proved for thresholds above every accumulated area")
c("C156", P, [FL+"C156_rows", FL+"C156_fractions", FL+"C156_returns"], "sums in any association; slopes are float64 numbers or NaN")
c("C157", P, [SE+"C157_segments", SE+"C157_limit"], "")
c("C158", PA, [SE+"C158_repeat_partial", SE+"C158_single", SE+"C158_values", SE+"C158_refuted", SE+"C158_refuted_concrete"], "false of the code for a stream without headwater or confluence, e.g. a single outlet cell: the grouped call erases it; proved otherwise")
c("C159", P, [DI+"C159_rounds", DI+"C159_twice"], "")
c("C160", P, [PI+"C160_neighbours", PI+"C160_good", PI+"C160_apart", PI+"C160_fill", PI+"C160_returns", PI+"C160_chain", PI+"C160_accumulation"], "exact arithmetic; FloPy lists queen neighbours (shared vertex) as its documentation says")
c("C161", P, [PI+"C161_returns", PI+"C161_hangs", PI+"C161_chain"], "exact arithmetic; FloPy lists queen neighbours (shared vertex) as its documentation says")
c("C162", P, [FL+"C162_machine", FL+"C162_chain"], "centres as FloPy computes them are a hypothesis (Measured); no overflow")
CH="Dany.Cache."
c("C163", PA, [CH+"C163_partial", CH+"C163_held", CH+"C163_fresh", CH+"C163_still_drains", CH+"C163_never_lower", CH+"C163_refuted", CH+"C163_refuted_concrete"], "false of the code: a stream object made first leaves side neighbours in the grid; proved otherwise. FloPy's caching is taken from its documented contract")
c("C164", P, [PR+"C164_coupling"], "same recursion limit for both objects")
c("C165", PA, [RD+"C165_partial", RD+"C165_exact", RD+"C165_refuted", RD+"C165_refuted_concrete"], "false of the code with grouped segments and an outlet flowing to itself; proved otherwise, with the exact value in all cases")
c("C166", PA, [SE+"C166_exact", PR+"C166_coupling_partial", PR+"C166_claim_partial", PR+"C166_refuted"], "false of the code with several self-flowing outlets; proved exactly when the numberings agree (same recursion limit for both objects)")
c("C167", PA, [PR+"C167_same_partial", PR+"C167_refuted"], "false of the code with the default arguments; proved for equal keywords")
c("C168", P, [PI+"C168_sfr", PI+"C168_both", PI+"C168_structured"], "C168_structured is the whole chain from the DEM on in exact arithmetic")
c("C169", PA, [SE+"C169_array", PI+"C169_exact", PI+"C169_partial", PI+"C169_refuted", PI+"C169_cascades_refuted", PI+"C169_refuted_concrete"], "false of the code for an outlet that is the only stream cell of its river; the exact value is proved, and the property otherwise")
c("C170", PA, [PI+"C170_unique", PI+"C170_balance", PI+"C170_exact", PI+"C170_partial", PI+"C170_chain_partial", PI+"C170_refuted", PI+"C170_refuted_concrete", PI+"C170_one_exact", PI+"C170_one_partial", PI+"C170_one_refuted", PI+"C170_one_concrete"], "false of the code for both kinds of cascades; exact accounts proved; slopes in any monotone rounding, fractions exact; fewer than 100 neighbours per cell")
c("C171", P, [BA+"C171_order", BA+"C171_exception"], "C171_order covers every direction array; the cells of the points are given (FloPy's intersect)")
c("C172", P, [BA+"C172_refine", BA+"C172_stay"], "points in cell 0 excluded (C38)")
c("C173", P, [DI+"C173_steepest", DI+"C173_same", DI+"C173_small", DI+"C173_ties", PI+"C173_filled"], "C173_ties: the condition on ties at terminal cells is needed")
c("C174", P, [F+"C174_complete", F+"C174_drain", F+"C174_priority", F+"C174_priority_magnifies"], "C174_priority_magnifies: the eps term is needed")
c("C175", P, [BA+"C175_single"], "")
c("C176", P, [A+"C176_reroute"], "")
c("C177", P, [SE+"C177_same"], "")
c("C178", P, [GE+"C178_area", GE+"C178_slope", GE+"C178_hru_len", GE+"C178_aspect", GE+"C178_slope_cut", PI+"C178_chain"], "C178_slope_cut: the condition about the 1e-6 cut-off is needed")
c("C179", P, [RE+"C179_packagedata", RE+"C179_side", RD+"C179_reach_data"], "")
c("C180", P, [X+"C180_units", X+"C180_monotone", X+"C180_error", X+"C180_chain"], "")
c("C181", P, [PR+"C181_scaled", PR+"C181_cascades", PR+"C181_builder"], "")
c("C182", P, [PI+"C182_streams", PI+"C182_mf6", PI+"C182_mf2005"], "")
c("C183", P, [PI+"C183_streams", PI+"C183_mf6", PI+"C183_confluences", PI+"C183_count", PI+"C183_merge"], "")
c("C184", P, [PI+"C184_subbasins", PI+"C184_areas"], "streams the water does not come back to after leaving them, for the areas; pour points are given as cells")
c("C185", PA, [PI+"C185_partial", PI+"C185_refuted"], "false of the code if the outlet flows on to a cell outside the watershed")
c("C186", P, [FL+"C186_balance", FL+"C186_chain"], "the routing itself is exact; fewer than 100 neighbours per cell; overflow not modelled")
c("C187", P, [F+"C187_complete", F+"C187_drain", F+"C187_priority", F+"C187_priority_differs"], "")
c("C188", P, [DI+"C188_flows", DI+"C188_noties", DI+"C188_local", DI+"C188_ties"], "")
c("C189", P, [PI+"C189_watershed", PI+"C189_accumulation"], "")
c("C190", P, [PI+"C190_accumulation", PI+"C190_watershed", PI+"C190_streams", PI+"C190_mf6"], "")
c("C191", P, [PI+"C191_segments"], "")
c("C192", P, [F+"C192_spill", F+"C192_overfill", F+"C192_kept", F+"C192_lifted"], "")
c("C193", P, [F+"C193_outlets"], "")
c("C194", P, [F+"C194_monotone", F+"C194_stable", F+"C194_local", F+"C194_lowers"], "")
c("C195", P, [PI+"C195_subbasins", PI+"C195_cascades"], "")
c("C196", PA, [PI+"C196_one_segment_partial", PI+"C196_refuted"], "false of the code: of several segments downstream the one with the lowest cell number is taken; true with one segment downstream")
c("C197", PA, [PI+"C197_cascades_partial", PI+"C197_refuted"], "false of the code: links to cells that drain into cell number 0 are dropped; true if the same cells drain there in both numberings")
c("C198", P, [PI+"C198_directions", PI+"C198_draining", PI+"C198_watershed", PI+"C198_accumulation"], "")
c("C199", P, [FL+"C199_same", FL+"C199_breaks", FL+"C199_continuous"], "integers beyond int64 are not modelled")
c("C200", P, [FL+"C200_returns_iff", FL+"C200_gaps", FL+"C200_chain"], "centres as FloPy computes them are a hypothesis (Measured); no overflow")
c("C201", P, [DI+"C201_cell", DI+"C201_directions", PI+"C201_filled", DI+"C201_margin"], "exact arithmetic")
c("C202", P, [RE+"C202_ncon"], "")
c("C203", P, [PI+"C203_packagedata", PI+"C203_reach_data"], "")
c("C204", P, [RD+"C204_reach_data", RD+"C204_builder"], "exact arithmetic")
c("C205", P, [PI+"C205_fill", PI+"C205_chain", PI+"C205_mirrors", PI+"C205_priority", PI+"C205_priority_differs"], "exact arithmetic; method priority is excluded because it is false there (C205_priority_differs)")
c("C206", P, [PI+"C206_runoff", PI+"C206_rivers"], "exact arithmetic")
c("C207", P, [PI+"C207_reaches"], "real numbers instead of floats")
c("C208", P, [PI+"C208_chain", PI+"C208_general", PI+"C208_turns"], "exact arithmetic; grids without ties")
c("C209", P, [PI+"C209_directions", PI+"C209_watershed", PI+"C209_no_circles", PI+"C209_accumulation", PI+"C209_streams", PI+"C209_structured"], "exact arithmetic; grids without ties")
c("C210", P, [F+"C210_complete", F+"C210_drain", F+"C210_priority", F+"C210_priority_differs", F+"C210_filled", F+"C210_mask", PI+"C210_structured", PI+"C210_rect", PI+"C210_rect_filled"], "")
c("C211", P, [PI+"C211_sfr", PI+"C211_both", PI+"C211_pruned", PI+"C211_thresholds", PI+"C211_double", PI+"C211_structured", PI+"C211_concrete"], "")
c("C212", PA, [PI+"C212_sfr_partial", PI+"C212_both_partial", PI+"C212_watershed_partial", PI+"C212_refuted", PI+"C212_irunbnd", PI+"C212_concrete"], "false of the code: KeyError if a segment of two or more reaches ends in the column whose number is the number of segments (C72); exact condition and everything else proved")
c("C213", P, [FL+"C213_id", FL+"C213_patch", FL+"C213_exact", FL+"C213_metres", FL+"C213_error", FL+"C213_utm", FL+"C213_streams", FL+"C213_far_refuted", FL+"C213_equal_refuted", FL+"C213_concrete"], "")
c("C214", P, [RD+"C214_rows", RD+"C214_values", RD+"C214_length", RD+"C214_slope", RD+"C214_table", RD+"C214_default"], "")
c("C215", P, [RE+"C215_values", RE+"C215_length", RE+"C215_gradient", RE+"C215_outlet", RE+"C215_table", RE+"tableE"], "")
c("C216", P, [RD+"C216_rows", RD+"C216_limits", RD+"C216_below", RD+"C216_own", RD+"C216_slope", RD+"C216_table", RD+"C216_segments", RD+"C216_again", RD+"builderR"], "")
c("C217", P, [NS+"C217_range", NS+"C217_number", NS+"C217_perfect", NS+"C217_one", NS+"C217_mean", NS+"C217_closer", NS+"C217_missing", NS+"C217_constant", NS+"C217_constant_refuted", NS+"C217_error", NS+"C217_concrete"], "")
c("C218", P, [IR+"C218_time", IR+"C218_linear", IR+"C218_quadratic"], "")
c("C219", P, [BA+"C219_watershed", BA+"C219_linear", BA+"C219_quadratic", BA+"C219_subbasins", BA+"C219_table"], "")
c("C220", P, [BA+"C220_bound", BA+"C220_cubic"], "")
c("C221", P, [F+"C221_time", F+"C221_linear"], "")
c("C222", P, [TO+"C222_time", TO+"C222_quadratic", TO+"C222_river"], "")
c("C223", P, [SE+"C223_time", SE+"C223_quadratic"], "")
