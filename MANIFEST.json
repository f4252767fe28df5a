{
 "claims": [
  {
   "property": "C91",
   "status": "partial",
   "theorems": [
    "Verif.Printpf.C91_system_ac",
    "Verif.Printpf.C91_system_dc",
    "Verif.Printpf.C91_bus_table",
    "Verif.Printpf.C91_area_active",
    "Verif.Printpf.C91_area_reactive_partial",
    "Verif.Printpf.C91_area_totals",
    "Verif.Printpf.C91_runpf_ac",
    "Verif.Printpf.C91_runpf_dc",
    "Verif.Printpf.C91_runopf_ac",
    "Verif.Printpf.C91_runopf_dc_partial",
    "Verif.Printpf.C91_area_reactive_negation",
    "Verif.Printpf.C91_isolated_negation",
    "Verif.Printpf.C91_dc_shunt_negation"
   ],
   "note": "false of the code in three places, each with a proved counterexample: the reactive area balance counts the charging of tie lines twice, demand of isolated buses is included, and after a DC OPF shunts are printed at the voltage of the input table; everything else is proved, end to end for runpf and runopf"
  },
  {
   "property": "C92",
   "status": "partial",
   "theorems": [
    "Verif.Printpf.C92_partial",
    "Verif.Printpf.C92_negation"
   ],
   "note": "false if the smallest area number is carried by a single bus (C92_negation); right otherwise"
  },
  {
   "property": "C93",
   "status": "partial",
   "theorems": [
    "Verif.Printpf.C93_partial",
    "Verif.Printpf.C93_runs_partial",
    "Verif.Printpf.C93_negation",
    "Verif.Printpf.C93_negation_opf"
   ],
   "note": "false for DC calculations unless OUT_ALL is 0: columns of the returned tables are zeroed (C93_negation); true for AC"
  },
  {
   "property": "C94",
   "status": "partial",
   "theorems": [
    "Verif.Printpf.C94_lists",
    "Verif.Printpf.C94_partial",
    "Verif.Printpf.C94_negation"
   ],
   "note": "false for the voltage section with option 1, which is never printed (operator precedence); right for all other sections and options"
  },
  {
   "property": "C95",
   "status": "partial",
   "theorems": [
    "Verif.Printpf.C95_partial",
    "Verif.Printpf.C95_exact_partial",
    "Verif.Printpf.C95_negation",
    "Verif.Printpf.C95_runopf_negation"
   ],
   "note": "false as soon as a dispatchable load is at a limit (C95_negation); right without dispatchable loads in service; C95_exact_partial says exactly when printing goes through"
  },
  {
   "property": "C96",
   "status": "proved",
   "theorems": [
    "Verif.Opf.C96_least_cost",
    "Verif.Opf.C96_angles",
    "Verif.Opf.C96_completes",
    "Verif.Opf.C96_accepts"
   ],
   "note": "without user constraints and user costs; gap explicit in the tolerances, multipliers and distance; success is reached for some tolerances; no dispatch within the limits is rejected, at any feasibility tolerance above rounding (C96_accepts)"
  },
  {
   "property": "C97",
   "status": "proved",
   "theorems": [
    "Verif.Opf.C97_no_gain"
   ],
   "note": "without user constraints and user costs; gap explicit in the tolerances and multipliers"
  },
  {
   "property": "C98",
   "status": "partial",
   "theorems": [
    "Verif.Opf.C98_signs_partial",
    "Verif.Opf.C98_slack_partial",
    "Verif.Opf.C98_stale",
    "Verif.Opf.C98_negation"
   ],
   "note": "false for the angle multiplier columns of branches without angle limits, which keep whatever the input had; proved for everything else"
  },
  {
   "property": "C100",
   "status": "partial",
   "theorems": [
    "Verif.Opf.Args.C100_case_forms",
    "Verif.Opf.Args.C100_table_forms",
    "Verif.Opf.Args.C100_tables_case",
    "Verif.Opf.Args.C100_file_partial",
    "Verif.Opf.Args.C100_file_loses",
    "Verif.Opf.Args.C100_file_negation",
    "Verif.Opf.Args.C100_counts",
    "Verif.Opf.Args.C100_arguments",
    "Verif.Opf.Args.C100_case_fills",
    "Verif.Opf.Args.C100_dictionary_partial",
    "Verif.Opf.Args.C100_empty_negation"
   ],
   "note": "a case given by file name loses the fields opf does not handle; constraints given as empty do not replace those of the case: both negations proved"
  },
  {
   "property": "C101",
   "status": "partial",
   "theorems": [
    "Verif.Index.C101_converts",
    "Verif.Index.C101_internal_partial",
    "Verif.Index.C101_external_partial",
    "Verif.Index.C101_round_trip_partial",
    "Verif.Index.C101_deep_negation",
    "Verif.Index.C101_spurious_negation"
   ],
   "note": "true for fields and fields of fields; for deeper nesting the conversion raises once something was saved under the first key, and empty entries are left among the saved data: both negations proved"
  },
  {
   "property": "C99",
   "status": "proved",
   "theorems": [
    "Verif.Opf.C99_prices",
    "Verif.Opf.C99_rent",
    "Verif.Opf.C99_uniform"
   ],
   "note": "without user constraints and user costs; bounds explicit in the tolerances, multipliers and susceptances"
  },
  {
   "property": "C89",
   "status": "proved",
   "theorems": [
    "Verif.Network.C89_Bp",
    "Verif.Network.C89_Bp_shift",
    "Verif.Network.C89_Bpp",
    "Verif.Solvers.C89_p_step",
    "Verif.Solvers.C89_q_step",
    "Verif.Runpf.C89_runpf"
   ],
   "note": "B' keeps phase shifters: C89_Bp says what it is without them, C89_Bp_shift in general"
  },
  {
   "property": "C90",
   "status": "partial",
   "theorems": [
    "Verif.Cpf.C90_balance",
    "Verif.Cpf.C90_parameterisation_partial"
   ],
   "note": "partial only where lambda has not moved from the previous point and the parameterisation is natural or arc length: there the reported derivative is wrong (C62_arc_negation)"
  },
  {
   "property": "C01",
   "status": "proved",
   "theorems": [
    "Verif.Index.C01_round_trip"
   ],
   "note": "an empty areas table is dropped by the conversion (stated in the theorem)"
  },
  {
   "property": "C02",
   "status": "proved",
   "theorems": [
    "Verif.Index.C02_consecutive_consistent",
    "Verif.Index.C02_stored_maps"
   ],
   "note": ""
  },
  {
   "property": "C03",
   "status": "proved",
   "theorems": [
    "Verif.Index.C03_exactly_in_service"
   ],
   "note": ""
  },
  {
   "property": "C04",
   "status": "proved",
   "theorems": [
    "Verif.Index.C04_results_land_on_right_rows"
   ],
   "note": ""
  },
  {
   "property": "C05",
   "status": "proved",
   "theorems": [
    "Verif.Index.C05_histories",
    "Verif.Index.C05_external_first"
   ],
   "note": "a never-converted case cannot be converted to external: the call raises"
  },
  {
   "property": "C06",
   "status": "proved",
   "theorems": [
    "Verif.Index.C06_data_reordering",
    "Verif.Index.C06_round_trip",
    "Verif.Index.C06_fill_is_cast",
    "Verif.Index.C06_case_fields"
   ],
   "note": "dense data; for data of another dtype the fill is cast (C06_fill_is_cast)"
  },
  {
   "property": "C07",
   "status": "partial",
   "theorems": [
    "Verif.Index.C07_partial",
    "Verif.Index.C07_sparse_unchanged",
    "Verif.Index.C07_negation"
   ],
   "note": "false of the code: sparse data with a list of orderings comes back unchanged; negation proved"
  },
  {
   "property": "C08",
   "status": "partial",
   "theorems": [
    "Verif.Index.C08_roundtrip_partial",
    "Verif.Index.C08_negation_areas"
   ],
   "note": "inverse raises for any nonempty areas table (negation proved); rest proved"
  },
  {
   "property": "C09",
   "status": "partial",
   "theorems": [
    "Verif.Index.C09_partial",
    "Verif.Index.C09_negation"
   ],
   "note": "false of the code for missing numbers below the largest bus number (negation proved)"
  },
  {
   "property": "C10",
   "status": "proved",
   "theorems": [
    "Verif.Bustypes.C10_classification",
    "Verif.Bustypes.C10_failure"
   ],
   "note": ""
  },
  {
   "property": "C11",
   "status": "proved",
   "theorems": [
    "Verif.Cost.C11_polycost",
    "Verif.Cost.C11_short_row"
   ],
   "note": ""
  },
  {
   "property": "C12",
   "status": "proved",
   "theorems": [
    "Verif.Cost.C12_totcost",
    "Verif.Cost.C12_single_point"
   ],
   "note": ""
  },
  {
   "property": "C13",
   "status": "partial",
   "theorems": [
    "Verif.Cost.C13_scaleF",
    "Verif.Cost.C13_shiftF",
    "Verif.Cost.C13_shiftX",
    "Verif.Cost.C13_scaleX_partial",
    "Verif.Cost.C13_scaleX_poly",
    "Verif.Cost.C13_negation"
   ],
   "note": "SCALE_X with a negative factor on a piecewise linear row is false of the code (negation proved); everything else proved"
  },
  {
   "property": "C14",
   "status": "proved",
   "theorems": [
    "Verif.Cost.C14_pqcost"
   ],
   "note": ""
  },
  {
   "property": "C15",
   "status": "partial",
   "theorems": [
    "Verif.Cost.C15_negation"
   ],
   "note": "false of the code: the conversion raises for every nonempty table (proved); nothing of the property remains to prove"
  },
  {
   "property": "C16",
   "status": "partial",
   "theorems": [
    "Verif.Cost.C16_partial",
    "Verif.Cost.C16_reactive_columns",
    "Verif.Cost.C16_negation"
   ],
   "note": "active costs proved; reactive cost rows are attached to the wrong generator (negation proved)"
  },
  {
   "property": "C17",
   "status": "proved",
   "theorems": [
    "Verif.Cost.C17_one_segment"
   ],
   "note": ""
  },
  {
   "property": "C22",
   "status": "proved",
   "theorems": [
    "Verif.Network.C22_kirchhoff"
   ],
   "note": ""
  },
  {
   "property": "C23",
   "status": "proved",
   "theorems": [
    "Verif.Network.C23_out_of_service",
    "Verif.Network.C23_symmetric",
    "Verif.Network.C23_tap_zero"
   ],
   "note": ""
  },
  {
   "property": "C24",
   "status": "proved",
   "theorems": [
    "Verif.Network.C24_lossless"
   ],
   "note": ""
  },
  {
   "property": "C25",
   "status": "proved",
   "theorems": [
    "Verif.Network.C25_single_slack",
    "Verif.Network.C25_weights",
    "Verif.Network.C25_matrix"
   ],
   "note": "linear solver abstracted by its contract"
  },
  {
   "property": "C26",
   "status": "proved",
   "theorems": [
    "Verif.Network.C26_outage"
   ],
   "note": "linear solver abstracted by its contract"
  },
  {
   "property": "C27",
   "status": "proved",
   "theorems": [
    "Verif.Network.C27_injections"
   ],
   "note": ""
  },
  {
   "property": "C28",
   "status": "partial",
   "theorems": [
    "Verif.Pfsoln.C28_slack",
    "Verif.Pfsoln.C28_reactive_partial",
    "Verif.Pfsoln.C28_reactive_exact",
    "Verif.Pfsoln.C28_negation",
    "Verif.Pfsoln.C28_branch_flows"
   ],
   "note": "reactive shares add up exactly only when EPS is 0; with EPS > 0 the exact deviation is proved, and its non-zeroness"
  },
  {
   "property": "C29",
   "status": "proved",
   "theorems": [
    "Verif.Pfsoln.C29_dc"
   ],
   "note": "linear solver abstracted by its contract"
  },
  {
   "property": "C38",
   "status": "proved",
   "theorems": [
    "Verif.OpfModel.C38_tiling",
    "Verif.OpfModel.C38_stable"
   ],
   "note": ""
  },
  {
   "property": "C39",
   "status": "partial",
   "theorems": [
    "Verif.OpfModel.C39_negation",
    "Verif.OpfModel.C39_partial"
   ],
   "note": "false of the code: a duplicate name only prints a message and moves the existing block (negation proved); other names are undisturbed"
  },
  {
   "property": "C40",
   "status": "proved",
   "theorems": [
    "Verif.OpfModel.C40_getv"
   ],
   "note": ""
  },
  {
   "property": "C41",
   "status": "proved",
   "theorems": [
    "Verif.OpfModel.C41_linear"
   ],
   "note": "for blocks that fit the model (the code only prints a message otherwise)"
  },
  {
   "property": "C42",
   "status": "partial",
   "theorems": [
    "Verif.OpfModel.C42_partial",
    "Verif.OpfModel.C42_negation"
   ],
   "note": "false of the code for the default variable set (negation proved: assembly raises); proved for named sets and for later empty blocks"
  },
  {
   "property": "C43",
   "status": "partial",
   "theorems": [
    "Verif.OpfModel.C43_partial",
    "Verif.OpfModel.C43_negation"
   ],
   "note": "N, Cw, H kept (proved); dd, rh, kk, mm are stored under the literal key \"name\" and lost (negation proved)"
  },
  {
   "property": "C44",
   "status": "partial",
   "theorems": [
    "Verif.OpfModel.C44_partial",
    "Verif.OpfModel.C44_negation"
   ],
   "note": "false of the code for queries by name (negation proved)"
  },
  {
   "property": "C45",
   "status": "proved",
   "theorems": [
    "Verif.OpfModel.C45_value",
    "Verif.OpfModel.C45_blocks"
   ],
   "note": "for non-negative dead zones, as documented"
  },
  {
   "property": "C34",
   "status": "proved",
   "theorems": [
    "Verif.Pips.C34_positive",
    "Verif.Pips.C34_returned_nonneg",
    "Verif.Pips.C34_gamma"
   ],
   "note": "over the reals (no rounding)"
  },
  {
   "property": "C35",
   "status": "proved",
   "theorems": [
    "Verif.Pips.C35_success",
    "Verif.Pips.C35_status",
    "Verif.Pips.C35_failure"
   ],
   "note": ""
  },
  {
   "property": "C36",
   "status": "proved",
   "theorems": [
    "Verif.Pips.C36_split",
    "Verif.Pips.C36_exact",
    "Verif.Pips.C36_multipliers",
    "Verif.Pips.C36_covered"
   ],
   "note": ""
  },
  {
   "property": "C68",
   "status": "proved",
   "theorems": [
    "Verif.Pips.C68_newton"
   ],
   "note": "linear solver abstracted by its contract"
  },
  {
   "property": "C37",
   "status": "partial",
   "theorems": [
    "Verif.Dispatch.C37_negation",
    "Verif.Dispatch.C37_partial",
    "Verif.Dispatch.C37_auto_negation",
    "Verif.Dispatch.C37_ac"
   ],
   "note": "false of the code for qps_pypower (`elif 700:` accepts every code; negation proved); documented codes other than 100 and 300 reach their solver"
  },
  {
   "property": "C67",
   "status": "partial",
   "theorems": [
    "Verif.OpfModel.C67_negation",
    "Verif.OpfModel.C67_partial"
   ],
   "note": "false of the code for two or more non-empty blocks (negation proved: it raises); proved for one block"
  },
  {
   "property": "C18",
   "status": "partial",
   "theorems": [
    "Verif.OpfCost.C18_partial",
    "Verif.OpfCost.C18_negation"
   ],
   "note": "false of the code with user offsets rhat or NCOST other than 2/3 (negation proved with the exact difference); proved otherwise"
  },
  {
   "property": "C19",
   "status": "partial",
   "theorems": [
    "Verif.OpfCost.C19_value_partial",
    "Verif.OpfCost.C19_gradient",
    "Verif.OpfCost.C19_negation",
    "Verif.OpfCost.C19_raises"
   ],
   "note": "value false of the code when row 0 is the only polynomial row (negation proved); gradient proved for all tables"
  },
  {
   "property": "C20",
   "status": "partial",
   "theorems": [
    "Verif.Load.C20_partial",
    "Verif.Load.C20_grand_partial",
    "Verif.Load.C20_negation"
   ],
   "note": "proved; with dispatchable loads it needs a scipy that negates boolean matrices, otherwise the call raises (negation proved)"
  },
  {
   "property": "C21",
   "status": "partial",
   "theorems": [
    "Verif.Load.C21_factor_partial",
    "Verif.Load.C21_quantity_partial",
    "Verif.Load.C21_quantity_total_partial",
    "Verif.Load.C21_impossible",
    "Verif.Load.C21_negation_default",
    "Verif.Load.C21_negation_int",
    "Verif.Load.C21_negation_scipy"
   ],
   "note": "proved for given zones (or area zones) and float targets; false for the default single zone (raises) and integer target arrays (truncated factors), negations proved"
  },
  {
   "property": "C58",
   "status": "proved",
   "theorems": [
    "Verif.Derivs.C58"
   ],
   "note": ""
  },
  {
   "property": "C59",
   "status": "proved",
   "theorems": [
    "Verif.Derivs.C59_power",
    "Verif.Derivs.C59_current",
    "Verif.Derivs.C59_sq_power",
    "Verif.Derivs.C59_sq_current",
    "Verif.Derivs.C59_sq_real"
   ],
   "note": ""
  },
  {
   "property": "C60",
   "status": "proved",
   "theorems": [
    "Verif.Derivs.C60_bus",
    "Verif.Derivs.C60_flow",
    "Verif.Derivs.C60_current",
    "Verif.Derivs.C60_sq_flow",
    "Verif.Derivs.C60_sq_current",
    "Verif.Derivs.C60_sq_real"
   ],
   "note": ""
  },
  {
   "property": "C30",
   "status": "proved",
   "theorems": [
    "Verif.Solvers.C30",
    "Verif.Solvers.C30_raises",
    "Verif.Solvers.C30_start"
   ],
   "note": "for every linear solver; the call raises exactly when there is neither a PV nor a PQ bus"
  },
  {
   "property": "C31",
   "status": "proved",
   "theorems": [
    "Verif.Solvers.C31",
    "Verif.Solvers.C31_Sbus",
    "Verif.Solvers.C31_update"
   ],
   "note": "the caller's Sbus is mutated at PV buses (stated in C31_Sbus)"
  },
  {
   "property": "C32",
   "status": "proved",
   "theorems": [
    "Verif.Solvers.C32",
    "Verif.Solvers.C32_raises"
   ],
   "note": "the call raises when there is no PQ bus"
  },
  {
   "property": "C69",
   "status": "proved",
   "theorems": [
    "Verif.Solvers.C69"
   ],
   "note": ""
  },
  {
   "property": "C33",
   "status": "partial",
   "theorems": [
    "Verif.Runpf.C33_partial",
    "Verif.Runpf.C33_negation"
   ],
   "note": "false of the code: any violation makes the enforcement loop raise (negation proved); when the call returns, its result is that without enforcement and all limits hold"
  },
  {
   "property": "C65",
   "status": "proved",
   "theorems": [
    "Verif.Runpf.C65",
    "Verif.Runpf.C65_defined"
   ],
   "note": ""
  },
  {
   "property": "C70",
   "status": "proved",
   "theorems": [
    "Verif.Runpf.C70",
    "Verif.Runpf.C70_all",
    "Verif.Runpf.C70_setpoints",
    "Verif.Runpf.C70_flows",
    "Verif.Runpf.C70_no_false_success"
   ],
   "note": ""
  },
  {
   "property": "C71",
   "status": "partial",
   "theorems": [
    "Verif.Runpf.C71_partial",
    "Verif.Runpf.C71_negation",
    "Verif.Runpf.C71_opf"
   ],
   "note": "false of the power flow driver for exactly 16 branch columns (negation proved); proved otherwise and for the OPF driver"
  },
  {
   "property": "C46",
   "status": "proved",
   "theorems": [
    "Verif.Userfcn.C46_registry",
    "Verif.Userfcn.C46_add",
    "Verif.Userfcn.C46_run",
    "Verif.Userfcn.C46_run_print"
   ],
   "note": ""
  },
  {
   "property": "C47",
   "status": "proved",
   "theorems": [
    "Verif.Userfcn.C47",
    "Verif.Userfcn.C47_on"
   ],
   "note": ""
  },
  {
   "property": "C48",
   "status": "proved",
   "theorems": [
    "Verif.CaseIO.C48",
    "Verif.CaseIO.C48_sequence"
   ],
   "note": ""
  },
  {
   "property": "C49",
   "status": "partial",
   "theorems": [
    "Verif.CaseIO.C49_partial",
    "Verif.CaseIO.C49_negation",
    "Verif.CaseIO.C49_declared_ignored"
   ],
   "note": "false of the code for tables with solution columns (negation proved for all of them); proved for tables without"
  },
  {
   "property": "C50",
   "status": "partial",
   "theorems": [
    "Verif.CaseIO.C50_bus",
    "Verif.CaseIO.C50_gen",
    "Verif.CaseIO.C50_branch_partial",
    "Verif.CaseIO.C50_branch_negation",
    "Verif.CaseIO.C50_cost_partial",
    "Verif.CaseIO.C50_cost_negation",
    "Verif.CaseIO.C50_reload"
   ],
   "note": "false for branch tables of 19 or 20 columns and for cost tables with spare columns (negations proved); proved otherwise"
  },
  {
   "property": "C51",
   "status": "partial",
   "theorems": [
    "Verif.Uopf.C51_partial",
    "Verif.Uopf.C51_objective",
    "Verif.Uopf.C51_only_off",
    "Verif.Uopf.C51_terminates",
    "Verif.Uopf.C51_returns",
    "Verif.Uopf.C51_negation"
   ],
   "note": "the up-front decommitment always raises (negation proved); the rest is proved for every OPF behaviour"
  },
  {
   "property": "C52",
   "status": "proved",
   "theorems": [
    "Verif.Constr.C52",
    "Verif.Constr.C52_ignored"
   ],
   "note": ""
  },
  {
   "property": "C53",
   "status": "partial",
   "theorems": [
    "Verif.Constr.C53_partial",
    "Verif.Constr.C53_negation"
   ],
   "note": "ambiguous limits are reported, not rejected (negation proved); equivalence proved for unambiguous loads"
  },
  {
   "property": "C54",
   "status": "proved",
   "theorems": [
    "Verif.Constr.C54",
    "Verif.Constr.C54_rows",
    "Verif.Constr.C54_reversed"
   ],
   "note": "for valid capability data (the conditions the code itself reports); C54_reversed shows what invalid data does"
  },
  {
   "property": "C55",
   "status": "partial",
   "theorems": [
    "Verif.Iflims.C55_partial",
    "Verif.Iflims.C55_first_dropped",
    "Verif.Iflims.C55_unsorted",
    "Verif.Iflims.C55_map_not_restored"
   ],
   "note": "false of the code when an interface contains the first in-service branch, for unsorted limit tables and for the restored map (negations proved); proved otherwise"
  },
  {
   "property": "C57",
   "status": "proved",
   "theorems": [
    "Verif.Reserves.C57",
    "Verif.Reserves.C57_results",
    "Verif.Reserves.C57_price"
   ],
   "note": "C57_price shows the reported price is the sum over zones, not the documented maximum"
  },
  {
   "property": "C56",
   "status": "partial",
   "theorems": [
    "Verif.Dcline.C56_injections",
    "Verif.Dcline.C56_bus_types",
    "Verif.Dcline.C56_coupling",
    "Verif.Dcline.C56_partial",
    "Verif.Dcline.C56_results_partial",
    "Verif.Dcline.C56_zero_negation",
    "Verif.Dcline.C56_float_negation",
    "Verif.Dcline.C56_cost_negation",
    "Verif.Dcline.C56_outage_negation"
   ],
   "note": "proved for numpy accepting float indices, no DC line costs, PMIN other than 0 and no outages in OPF results; the negations are proved for the other cases"
  },
  {
   "property": "C61",
   "status": "proved",
   "theorems": [
    "Verif.Cpf.C61"
   ],
   "note": ""
  },
  {
   "property": "C62",
   "status": "partial",
   "theorems": [
    "Verif.Cpf.C62_value",
    "Verif.Cpf.C62_derivative_partial",
    "Verif.Cpf.C62_arc_negation"
   ],
   "note": "false of the code for the lambda derivative of the arc length at an unmoved point (negation proved: reported 1, true 0)"
  },
  {
   "property": "C63",
   "status": "partial",
   "theorems": [
    "Verif.Cpf.C63",
    "Verif.Cpf.C63_step",
    "Verif.Cpf.C63_final_step",
    "Verif.Cpf.C63_arrives",
    "Verif.Cpf.C63_overshoot_negation",
    "Verif.Cpf.C63_overshoot_witness",
    "Verif.Cpf.C63_identical_negation",
    "Verif.Cpf.C63_controlled"
   ],
   "note": "false of the code: the corrected point can overshoot the target, and identical cases raise (negations proved)"
  },
  {
   "property": "C72",
   "status": "proved",
   "theorems": [
    "Verif.Cpf.C72"
   ],
   "note": "linear solver abstracted by its contract"
  },
  {
   "property": "C64",
   "status": "partial",
   "theorems": [
    "Verif.Mupq.C64_partial",
    "Verif.Mupq.C64_none",
    "Verif.Mupq.C64_negation"
   ],
   "note": "false of the code when only one kind of sloped constraint is present: it raises (negation proved); proved when both or none are present"
  },
  {
   "property": "C66",
   "status": "proved",
   "theorems": [
    "Verif.Util.C66_flatten",
    "Verif.Util.C66_injective"
   ],
   "note": ""
  },
  {
   "property": "C73",
   "status": "proved",
   "theorems": [
    "Verif.OpfNl.C73_balance",
    "Verif.OpfNl.C73_mismatch",
    "Verif.OpfNl.C73_limits"
   ],
   "note": ""
  },
  {
   "property": "C74",
   "status": "proved",
   "theorems": [
    "Verif.OpfNl.C74_dg",
    "Verif.OpfNl.C74_dh",
    "Verif.OpfNl.C74_dh_const",
    "Verif.OpfNl.C74_negation_offline"
   ],
   "note": "generators in service, as after ext2int; C74_negation_offline shows this is needed"
  },
  {
   "property": "C75",
   "status": "partial",
   "theorems": [
    "Verif.OpfNl.C75_partial",
    "Verif.OpfNl.C75_gradient",
    "Verif.OpfNl.C75_negation_qcost",
    "Verif.OpfNl.C75_negation_unconstrained"
   ],
   "note": "the code raises with reactive cost rows or without a constrained branch (negations proved); proved otherwise"
  },
  {
   "property": "C76",
   "status": "proved",
   "theorems": [
    "Verif.Pips.C76_returns",
    "Verif.Pips.C76_feasible",
    "Verif.Pips.C76_signs",
    "Verif.Pips.C76_absent",
    "Verif.Pips.C76_objective",
    "Verif.Pips.C76_stationary"
   ],
   "note": "tolerances relative to the size of the solution and internal slacks/multipliers, as in the code"
  },
  {
   "property": "C77",
   "status": "proved",
   "theorems": [
    "Verif.Opf.C77_completes",
    "Verif.Opf.C77_balance",
    "Verif.Opf.C77_flow_limit",
    "Verif.Opf.C77_dispatch",
    "Verif.Opf.C77_reference",
    "Verif.Opf.C77_flows",
    "Verif.Opf.C77_extra",
    "Verif.Opf.C77_cost"
   ],
   "note": "limits beyond 1e10 per unit count as absent; solved by pips (other solvers not modelled)"
  },
  {
   "property": "C78",
   "status": "proved",
   "theorems": [
    "Verif.Opf.C78_generator_price",
    "Verif.Opf.C78_congestion",
    "Verif.Opf.C78_signs"
   ],
   "note": ""
  },
  {
   "property": "C79",
   "status": "proved",
   "theorems": [
    "Verif.Opf.C79_balance",
    "Verif.Opf.C79_flows",
    "Verif.Opf.C79_flow_limit",
    "Verif.Opf.C79_limits",
    "Verif.Opf.C79_reference",
    "Verif.Opf.C79_extra",
    "Verif.Opf.C79_cost"
   ],
   "note": "limits beyond 1e10 per unit count as absent; solved by pips; C79_cost where opf_costfcn is right (C19); quantities per internally ordered case"
  },
  {
   "property": "C80",
   "status": "proved",
   "theorems": [
    "Verif.Opf.C80_generator_price",
    "Verif.Opf.C80_polynomial_price",
    "Verif.Opf.C80_network_prices",
    "Verif.Opf.C80_signs"
   ],
   "note": "C80_network_prices asks for positive voltage magnitudes, generators of the internal table in service and, with user costs, a point off the edges of dead zones"
  },
  {
   "property": "C81",
   "status": "partial",
   "theorems": [
    "Verif.Opf.C81_completes_partial",
    "Verif.Opf.C81_negation"
   ],
   "note": "false of the code without a limited branch or with reactive cost rows (negation proved); proved otherwise"
  },
  {
   "property": "C82",
   "status": "proved",
   "theorems": [
    "Verif.Pips.C82_optimal"
   ],
   "note": "callbacks convex in the sense of lying above their tangents, with the gradients supplied"
  },
  {
   "property": "C83",
   "status": "proved",
   "theorems": [
    "Verif.Opf.C83_completes",
    "Verif.Opf.C83_reported_cost",
    "Verif.Opf.C83_least_cost"
   ],
   "note": "solved by pips; polynomial costs of NCOST 2 or 3 (others are wrong in the code, C18); the user offset of C18 is subtracted; right hand sides of cost constraints below 1e10"
  },
  {
   "property": "C84",
   "status": "proved",
   "theorems": [
    "Verif.Pips.C84_binding",
    "Verif.Opf.C84_dc",
    "Verif.Opf.C84_dc_extra",
    "Verif.Opf.C84_ac"
   ],
   "note": "AC branch flow limits are nonlinear and nonconvex: only their feasibility and signs are covered (C79, C80)"
  },
  {
   "property": "C85",
   "status": "proved",
   "theorems": [
    "Verif.Opf.C85_polynomial",
    "Verif.Opf.C85_piecewise",
    "Verif.Opf.C85_ac"
   ],
   "note": "AC: generators with polynomial costs and no user costs"
  },
  {
   "property": "C86",
   "status": "partial",
   "theorems": [
    "Verif.Opf.C86_dc",
    "Verif.Opf.C86_dc_flows",
    "Verif.Opf.C86_dc_inputs",
    "Verif.Opf.C86_dc_untouched",
    "Verif.Opf.C86_dc_completes",
    "Verif.Opf.C86_ac",
    "Verif.Opf.C86_ac_flows",
    "Verif.Opf.C86_ac_inputs",
    "Verif.Opf.C86_ac_completes_partial"
   ],
   "note": "partial only in that an AC run without a limited branch or with reactive costs raises (C81), and that C86_dc_completes is for the bare problem: with angle limits and piecewise linear costs see C96, with reserves C106, with user data C109, with interface limits C112"
  },
  {
   "property": "C87",
   "status": "proved",
   "theorems": [
    "Verif.Runpf.C87_ac",
    "Verif.Runpf.C87_ac_reactive",
    "Verif.Runpf.C87_ac_voltages",
    "Verif.Runpf.C87_ac_dispatch",
    "Verif.Runpf.C87_ac_flows",
    "Verif.Runpf.C87_ac_inputs",
    "Verif.Runpf.C87_ac_finite",
    "Verif.Runpf.C87_ac_completes",
    "Verif.Runpf.C87_dc",
    "Verif.Runpf.C87_dc_flows",
    "Verif.Runpf.C87_dc_dispatch",
    "Verif.Runpf.C87_dc_inputs",
    "Verif.Runpf.C87_dc_completes"
   ],
   "note": "with ENFORCE_Q_LIMS set a solution that violates a limit makes the code raise, one that does not is covered; the fast-decoupled tolerance is scaled by VM, as in the code; DC balance for tied networks with positive reactances and a linear solver that solves regular systems"
  },
  {
   "property": "C88",
   "status": "proved",
   "theorems": [
    "Verif.Network.C88_regular",
    "Verif.Network.C88_unique",
    "Verif.Network.C88_island"
   ],
   "note": ""
  },
  {
   "property": "C102",
   "status": "proved",
   "theorems": [
    "Verif.Cpf.C102",
    "Verif.Cpf.C102_curve",
    "Verif.Cpf.C102_inputs",
    "Verif.Cpf.C102_completes",
    "Verif.Cpf.C102_identical"
   ],
   "note": "same loading in both cases raises (C102_identical); the trace may run for ever (C102_completes says that it does not raise); the base power flow behind the first point may have failed unnoticed (C63)"
  },
  {
   "property": "C103",
   "status": "proved",
   "theorems": [
    "Verif.Printpf.C103_system",
    "Verif.Printpf.C103_extremes",
    "Verif.Printpf.C103_losses",
    "Verif.Printpf.C103_area",
    "Verif.Printpf.C103_area_totals",
    "Verif.Printpf.C103_generators",
    "Verif.Printpf.C103_options"
   ],
   "note": "area totals need two buses in the first area (see C92); largest losses at an AC operating point"
  },
  {
   "property": "C104",
   "status": "partial",
   "theorems": [
    "Verif.Ipopt.C104_values",
    "Verif.Ipopt.C104_jacobian",
    "Verif.Ipopt.C104_hessian_partial",
    "Verif.Ipopt.C104_hessian_quadratic_partial",
    "Verif.Ipopt.C104_negation_curvature",
    "Verif.Ipopt.C104_negation_raises",
    "Verif.Ipopt.C104_negation_unlimited"
   ],
   "note": "values and Jacobian hold; false of the Hessian: a cost whose curvature vanishes at the starting point loses its entry for good (C104_negation_curvature), and callbacks raise without a limited branch or with reactive costs"
  },
  {
   "property": "C105",
   "status": "partial",
   "theorems": [
    "Verif.Ipopt.C105_balance",
    "Verif.Ipopt.C105_flows",
    "Verif.Ipopt.C105_flow_limit",
    "Verif.Ipopt.C105_limits",
    "Verif.Ipopt.C105_reference",
    "Verif.Ipopt.C105_extra",
    "Verif.Ipopt.C105_cost",
    "Verif.Ipopt.C105_generator_price",
    "Verif.Ipopt.C105_polynomial_price",
    "Verif.Ipopt.C105_network_prices",
    "Verif.Ipopt.C105_slack",
    "Verif.Ipopt.C105_split",
    "Verif.Ipopt.C105_completes_partial",
    "Verif.Ipopt.C105_negation"
   ],
   "note": "IPOPT is a parameter (Sound); partial only in that the solver raises without a limited branch or with reactive costs (C105_negation), as pipsopf_solver does (C81)"
  },
  {
   "property": "C106",
   "status": "proved",
   "theorems": [
    "Verif.Opf.C106_tables",
    "Verif.Opf.C106_reserves",
    "Verif.Opf.C106_limits",
    "Verif.Opf.C106_completes",
    "Verif.Opf.C106_none"
   ],
   "note": "limits beyond 1e10 p.u. count as absent; without a providing generator in service the run ends with an exception (C106_none)"
  },
  {
   "property": "C107",
   "status": "proved",
   "theorems": [
    "Verif.Opf.C107_signs",
    "Verif.Opf.C107_prc",
    "Verif.Opf.C107_price",
    "Verif.Opf.C107_equilibrium"
   ],
   "note": "prc is the sum of the shadow prices of the zones of a generator (the documentation says maximum); it is what the zones pay if zones are zeros and ones (C107_prc)"
  },
  {
   "property": "C108",
   "status": "proved",
   "theorems": [
    "Verif.Opf.C108_least_cost"
   ],
   "note": "gap explicit in the tolerances, multipliers and distance"
  },
  {
   "property": "C109",
   "status": "partial",
   "theorems": [
    "Verif.Opf.C109_tables",
    "Verif.Opf.C109_applied",
    "Verif.Opf.C109_partial",
    "Verif.Opf.C109_multipliers",
    "Verif.Opf.C109_dense",
    "Verif.Opf.C109_noH",
    "Verif.Opf.C109_completes",
    "Verif.Opf.C109_accepts",
    "Verif.Opf.C109_negation"
   ],
   "note": "false of the code (C109_negation): a sparse A or N is not converted to the internal numbering, so its columns act on the internal rows (C109_applied says exactly how); holds when everything is in service and the generators are listed by bus row (C109_partial). Dense matrices raise (C109_dense), costs without H raise (C109_noH), fparm is dropped (C43_negation)"
  },
  {
   "property": "C110",
   "status": "partial",
   "theorems": [
    "Verif.Opf.C110_applied",
    "Verif.Opf.C110_partial",
    "Verif.Opf.C110_negation"
   ],
   "note": "false of the code for the same reason (C110_negation); least cost of the problem actually applied (C110_applied), and of the user's problem when everything is in service and in order (C110_partial)"
  },
  {
   "property": "C111",
   "status": "partial",
   "theorems": [
    "Verif.Opf.C111_algorithm",
    "Verif.Opf.C111_dc_partial",
    "Verif.Opf.C111_ac_partial",
    "Verif.Opf.C111_negation"
   ],
   "note": "false of the code (C111_negation): with two non-empty cost sets packaging always raises; proved for at most one, any number of variable and constraint sets; dd, rh, kk, mm are left out of cost sets (C43)"
  },
  {
   "property": "C112",
   "status": "partial",
   "theorems": [
    "Verif.Opf.C112_completes",
    "Verif.Opf.C112_applied",
    "Verif.Opf.C112_economics",
    "Verif.Opf.C112_accepts",
    "Verif.Opf.C112_partial",
    "Verif.Opf.C112_first_ignored",
    "Verif.Opf.C112_order_ignored"
   ],
   "note": "false of the code: an interface loses the first branch in service (C112_first_ignored), limits not listed in increasing order go to the wrong interfaces (C112_order_ignored); what is applied is C112_applied/C112_economics for all maps and limits, and the English statement holds for sorted limits and maps without that branch (C112_partial)"
  },
  {
   "property": "C113",
   "status": "partial",
   "theorems": [
    "Verif.DType.C113_float",
    "Verif.DType.C113_dc",
    "Verif.DType.C113_dc_completes",
    "Verif.DType.C113_dc_partial",
    "Verif.DType.C113_ac",
    "Verif.DType.C113_ac_completes",
    "Verif.DType.C113_ac_partial",
    "Verif.DType.C113_negation",
    "Verif.DType.C113_negation_half"
   ],
   "note": "false of the code: outputs are stored in the caller's integer table and lose their fractions, so the tables do not balance at the slack bus (C113_negation); outcome, voltages and flows are the same and the loss is bounded (C113_dc, C113_ac, C113_dc_partial, C113_ac_partial)"
  },
  {
   "property": "C114",
   "status": "partial",
   "theorems": [
    "Verif.DType.C114_float",
    "Verif.DType.C114_whole",
    "Verif.DType.C114_completes",
    "Verif.DType.C114_partial",
    "Verif.DType.C114_negation"
   ],
   "note": "false of the code: slope and intercept of one-segment costs are stored in the integer table and lose their fractions (C114_negation: every successful run reports 0 although each dispatch costs at least 5 $/h); right for float tables and for whole slopes and intercepts (C114_float, C114_whole); otherwise C96 up to one $/MWh and one $/h per such generator (C114_partial)"
  },
  {
   "property": "C115",
   "status": "partial",
   "theorems": [
    "Verif.SaveText.C115_partial",
    "Verif.SaveText.C115_kept",
    "Verif.SaveText.C115_stable",
    "Verif.SaveText.C115_integer",
    "Verif.SaveText.C115_infinite",
    "Verif.SaveText.C115_zl",
    "Verif.SaveText.C115_user",
    "Verif.SaveText.C115_name",
    "Verif.SaveText.C115_negation"
   ],
   "note": "false of the code: infinite or undefined numbers (C115_infinite, C115_negation) and a lower bound zl (C115_zl) give a file that cannot be loaded, user matrices A, N cannot be saved (C115_user), some names cannot be loaded (C115_name), and a generator table of whole values comes back as integers (C115_integer); proved for finite cases of the printed shapes with a usable name (C115_partial, digits in C115_kept, stability in C115_stable); the .mat path and user callbacks are not modelled"
  },
  {
   "property": "C116",
   "status": "partial",
   "theorems": [
    "Verif.Loadcase.C116_own",
    "Verif.Loadcase.C116_file_own",
    "Verif.Loadcase.C116_case",
    "Verif.Loadcase.C116_again",
    "Verif.Loadcase.C116_list",
    "Verif.Loadcase.C116_codes_partial",
    "Verif.Loadcase.C116_absent",
    "Verif.Loadcase.C116_argument",
    "Verif.Loadcase.C116_syntax",
    "Verif.Loadcase.C116_missing",
    "Verif.Loadcase.C116_missing_dict",
    "Verif.Loadcase.C116_run",
    "Verif.Loadcase.C116_negation"
   ],
   "note": "ownership, contents, reloading (generator tables of at least ten columns) and the order of separate tables are proved; the codes are proved in one direction (C116_codes_partial: a returned code means what is said) and for absent files (C116_absent); false of the code: code 1 is never returned (C116_argument), syntax errors and missing tables raise instead of code 5 (C116_syntax, C116_missing, C116_negation), and no caller looks at the codes (C116_run)"
  },
  {
   "property": "C117",
   "status": "partial",
   "theorems": [
    "Verif.Caller.C117_runpf",
    "Verif.Caller.C117_runcpf",
    "Verif.Caller.C117_opf_partial",
    "Verif.Caller.C117_plain_partial",
    "Verif.Caller.C117_sticky",
    "Verif.Caller.C117_next",
    "Verif.Caller.C117_uopf",
    "Verif.Caller.C117_negation"
   ],
   "note": "proved for power flows and continuation power flows; for opf proved of every object but the dictionary itself (C117_opf_partial) and, for a case without user data, of the contents of the dictionary up to the columns added (C117_plain_partial); false of the code otherwise: opf_args2 writes into the caller's dictionary, so that constraints given once stay (C117_sticky, C117_next) and uopf leaves the last unit it tried out of service (C117_uopf, C117_negation)"
  },
  {
   "property": "C118",
   "status": "partial",
   "theorems": [
    "Verif.SaveMat.C118_case_partial",
    "Verif.SaveMat.C118_saves",
    "Verif.SaveMat.C118_vectors",
    "Verif.SaveMat.C118_lost",
    "Verif.SaveMat.C118_bounds",
    "Verif.SaveMat.C118_order",
    "Verif.SaveMat.C118_fresh",
    "Verif.SaveMat.C118_sparse",
    "Verif.SaveMat.C118_caller",
    "Verif.SaveMat.C118_again",
    "Verif.SaveMat.C118_negation"
   ],
   "note": "proved for the main tables, areas, costs and the user matrix (C118_case_partial), that plain cases can be saved (C118_saves) and run after loading (C118_fresh), and stability (C118_again); false of the code otherwise: vectors come back as tables of one row (C118_vectors), other keys are lost (C118_lost, C118_bounds), a result cannot be run after loading because its numbering comes back as an array (C118_order, C118_negation), sparse user matrices cannot be saved (C118_sparse), and the version is set in the caller's dictionary (C118_caller)"
  },
  {
   "property": "C119",
   "status": "partial",
   "theorems": [
    "Verif.ExtReport.C119_opf_partial",
    "Verif.ExtReport.C119_dc_partial",
    "Verif.ExtReport.C119_reserves",
    "Verif.ExtReport.C119_pf",
    "Verif.ExtReport.C119_left",
    "Verif.ExtReport.C119_quiet",
    "Verif.ExtReport.C119_iflims",
    "Verif.ExtReport.C119_dc_off",
    "Verif.ExtReport.C119_dc_mu",
    "Verif.ExtReport.C119_save",
    "Verif.ExtReport.C119_save_on",
    "Verif.ExtReport.C119_save_off",
    "Verif.ExtReport.C119_negation",
    "Verif.ExtReport.C119_save_negation"
   ],
   "note": "False of the code: power flows of cases with a registry, even an empty one, interface limits and DC lines out of service raise when printed, and no extension can be saved; proved: when the reports of DC lines and reserves are printed and what they show, and each of these failures for all inputs."
  },
  {
   "property": "C120",
   "status": "partial",
   "theorems": [
    "Verif.Opf.C120_capability",
    "Verif.Opf.C120_limits",
    "Verif.Opf.C120_angles",
    "Verif.Opf.C120_powerfactor_partial",
    "Verif.Opf.C120_negation_powerfactor",
    "Verif.Opf.C120_negation",
    "Verif.Opf.C120_completes_partial"
   ],
   "note": "False of the code: when only upper (or only lower) corners are cut off by capability curves a converged run raises, and a dispatchable load with two nonzero reactive limits is forced to zero reactive power instead of being rejected; proved: capability lines, power factors and angle limits hold in the returned tables of every successful run, when runs return, and both failures for all inputs."
  },
  {
   "property": "C121",
   "status": "proved",
   "theorems": [
    "Verif.Opf.C121_prices",
    "Verif.Opf.C121_multipliers"
   ],
   "note": "for cases whose costs are all those of the table (no user variables, constraints or costs, no piecewise linear costs)"
  },
  {
   "property": "C122",
   "status": "partial",
   "theorems": [
    "Verif.Cli.C122_options_partial",
    "Verif.Cli.C122_tests",
    "Verif.Cli.C122_usage",
    "Verif.Cli.C122_text",
    "Verif.Cli.C122_safe",
    "Verif.Cli.C122_never",
    "Verif.Cli.C122_exit"
   ],
   "note": "false of the code for options with a text default (C122_text); everything else is proved"
  },
  {
   "property": "C123",
   "status": "proved",
   "theorems": [
    "Verif.UnitOpf.C123_refused",
    "Verif.UnitOpf.C123_returned",
    "Verif.UnitOpf.C123_objective",
    "Verif.UnitOpf.C123_success",
    "Verif.UnitOpf.C123_ends",
    "Verif.UnitOpf.C123_dc_returns",
    "Verif.UnitOpf.C123_dc",
    "Verif.UnitOpf.C123_dc_cost",
    "Verif.UnitOpf.C123_dc_all_on",
    "Verif.UnitOpf.C123_ac"
   ],
   "note": ""
  },
  {
   "property": "C124",
   "status": "partial",
   "theorems": [
    "Verif.Qps.C124_optimal_partial",
    "Verif.Qps.C124_multipliers",
    "Verif.Qps.C124_accepted",
    "Verif.Qps.C124_bounds_only",
    "Verif.Qps.C124_same",
    "Verif.Qps.C124_again",
    "Verif.Qps.C124_asymmetric",
    "Verif.Qps.C124_pypower_partial",
    "Verif.Qps.C124_options_ignored",
    "Verif.Qps.C124_max_it",
    "Verif.Qps.C124_bounds_only_pypower"
   ],
   "note": "false of the code for H that is not symmetric, linear programmes with bounds only, options with a dictionary without H, and max_it zero (each proved); everything else is proved"
  },
  {
   "property": "C125",
   "status": "proved",
   "theorems": [
    "Verif.Opf.C125_dc",
    "Verif.Opf.C125_dc_raises",
    "Verif.Opf.C125_ac",
    "Verif.Opf.C125_ac_raises",
    "Verif.Opf.C125_restate",
    "Verif.Opf.C125_dc_again",
    "Verif.Opf.C125_ac_again",
    "Verif.Opf.C125_interior",
    "Verif.Opf.C125_violation",
    "Verif.Opf.C125_no_effect",
    "Verif.Opf.C125_no_reference",
    "Verif.Opf.C125_completes",
    "Verif.Opf.C125_succeeds",
    "Verif.Opf.C125_tolerance",
    "Verif.Opf.C125_least_cost"
   ],
   "note": "PIPS is deterministic in the model (its linear solver is a function); the other solvers are not modelled"
  },
  {
   "property": "C126",
   "status": "partial",
   "theorems": [
    "Verif.Opf.C126_tables",
    "Verif.Opf.C126_dense",
    "Verif.Opf.C126_applied",
    "Verif.Opf.C126_partial",
    "Verif.Opf.C126_multipliers",
    "Verif.Opf.C126_multipliers_partial",
    "Verif.Opf.C126_completes",
    "Verif.Opf.C126_accepts",
    "Verif.Opf.C126_negation"
   ],
   "note": "proved for the rows the code applies the columns to; for the caller's rows only when everything is in service and generators are in bus order, the code ignores this for sparse matrices; user costs are not modelled"
  },
  {
   "property": "C127",
   "status": "proved",
   "theorems": [
    "Verif.Opf.C127_accepts",
    "Verif.Opf.C126_accepts"
   ],
   "note": "costs of active power without helper variables; cut-off corners of both kinds or none (otherwise no run returns, C120); a load with two nonzero reactive limits is taken at zero reactive power, as the code does"
  },
  {
   "property": "C128",
   "status": "proved",
   "theorems": [
    "Verif.Opf.C128_prices",
    "Verif.Opf.C128_dc",
    "Verif.Pips.C128_solver"
   ],
   "note": "DC formulation without user constraints, variables and costs; shadow prices below 1e-5 (scaled, p.u.) are reported as zero by the code, hence the second error term"
  },
  {
   "property": "C129",
   "status": "proved",
   "theorems": [
    "Verif.Opf.C129_identity",
    "Verif.Opf.C129_rents",
    "Verif.Opf.C129_no_loss"
   ],
   "note": "without user constraints, variables and costs; several references must share one returned angle"
  },
  {
   "property": "C130",
   "status": "proved",
   "theorems": [
    "Verif.Runpf.C130_ac",
    "Verif.Runpf.C130_dc"
   ],
   "note": "exact arithmetic; with ENFORCE_Q_LIMS a run with a violation raises (C70), the others are covered; AC: positive set points and no generator in service at a bus declared PQ, both are needed by the code"
  },
  {
   "property": "C131",
   "status": "proved",
   "theorems": [
    "Verif.Runpf.C131_pf_ac",
    "Verif.Runpf.C131_pf_dc",
    "Verif.Opf.C131_opf_ac",
    "Verif.Opf.C131_opf_dc"
   ],
   "note": "rows keep their order; costs and further constraints of the AC problem are any function of the data in internal numbering; callbacks that keep their own bus numbers are not covered"
  },
  {
   "property": "C132",
   "status": "proved",
   "theorems": [
    "Verif.Runpf.C132_dc",
    "Verif.Runpf.C132_needs_ref"
   ],
   "note": "branches in service with positive reactance, every connected bus joined to a REF bus with a generator in service; individual generator rows where no bus has two generators in service (otherwise the first one in the table takes the change); without a REF bus the order matters (C132_needs_ref)"
  },
  {
   "property": "C133",
   "status": "proved",
   "theorems": [
    "Verif.Runpf.C133_dc"
   ],
   "note": "branches in service with positive reactance, every connected bus joined to a slack bus; weights sum to 1 unless no phase shifter is in service"
  },
  {
   "property": "C134",
   "status": "proved",
   "theorems": [
    "Verif.Runpf.C134_dc"
   ],
   "note": "branches in service with positive reactance, every connected bus joined to a slack bus"
  },
  {
   "property": "C135",
   "status": "proved",
   "theorems": [
    "Verif.Runpf.C135_pf_ac",
    "Verif.Runpf.C135_pf_dc",
    "Verif.Opf.C135_opf_ac",
    "Verif.Opf.C135_opf_dc"
   ],
   "note": "optimal power flows without user matrices A and N (their columns refer to all rows, C109); areas are not compared"
  },
  {
   "property": "C136",
   "status": "proved",
   "theorems": [
    "Verif.Runpf.C136_ac",
    "Verif.Runpf.C136_dc"
   ],
   "note": "fast decoupled methods: branches turned have ratio 1, as the property says"
  },
  {
   "property": "C137",
   "status": "proved",
   "theorems": [
    "Verif.Runpf.C137_ac",
    "Verif.Runpf.C137_dc"
   ],
   "note": "the number of iterations is an internal step of the proof (newtonpf_scale, fdpf_scale, gausspf_scale: equal results including the count); runpf does not return it"
  },
  {
   "property": "C138",
   "status": "proved",
   "theorems": [
    "Verif.Runpf.C138_ac",
    "Verif.Runpf.C138_dc"
   ],
   "note": "AC: every algorithm and every outcome (raising, NaN tables, no convergence, convergence); the angle of a bus with zero voltage is not determined and excluded; the linear solver is assumed to give up on a square system in which an unknown does not occur. DC: islands tied to slack buses by inductive branches (otherwise the equations are singular)"
  },
  {
   "property": "C139",
   "status": "proved",
   "theorems": [
    "Verif.Runpf.C139_unused_guesses"
   ],
   "note": "every algorithm and every outcome (raising, NaN tables, no convergence, convergence); a stored magnitude that is zero or negative does matter to the code and is excluded; the DC power flow is the subject of C134"
  },
  {
   "property": "C140",
   "status": "proved",
   "theorems": [
    "Verif.Runpf.C140_net_injections"
   ],
   "note": "every algorithm and every outcome; reactive limits not enforced, since enforcing them looks at outputs, which do differ; the DC power flow is the subject of C134"
  },
  {
   "property": "C141",
   "status": "proved",
   "theorems": [
    "Verif.Runpf.C141_ac",
    "Verif.Runpf.C141_dc"
   ],
   "note": "both cases well-formed, so costs and user matrices have enough rows and columns to be converted (otherwise the conversion raises, C109); limits of reactive power do matter to AC power flows and are not among the columns"
  },
  {
   "property": "C142",
   "status": "proved",
   "theorems": [
    "Verif.Runpf.C142_ac",
    "Verif.Runpf.C142_dc"
   ],
   "note": "generators only: the status of a branch enters the admittances as a factor in the code (makeYbus.py:44, makeBdc.py:51) and is read bitwise by ext2int.py:123, so for branches only 0 and 1 are meaningful"
  },
  {
   "property": "C143",
   "status": "proved",
   "theorems": [
    "Verif.Runpf.C143_ac",
    "Verif.Runpf.C143_dc"
   ],
   "note": "power flows only: an optimal power flow fixes the angle of every bus declared REF, with or without generators (opf_setup.py)"
  }
 ]
}