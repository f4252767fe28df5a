# Formal model of PYPOWER in Lean 4 — design

## 1. What this is

`/verif/lean` is a Lean 4 (Mathlib) development containing
* **models**: total Lean functions mirroring functions of `/repo/pypower/*.py`, branch by branch; every
  definition carries a comment with the file and lines it models and what was simplified;
* **specifications**: small definitions that say, independently of the model, what the user expects;
* **property theorems**: `Verif/<Area>/Props.lean` (and `Witness.lean` for concrete counterexamples), proved for all inputs.

Layout: `Verif/<Area>/Model.lean` (model), `Verif/<Area>/Spec.lean` (specification, only when the statement
needs vocabulary), `Verif/<Area>/Lemmas.lean` (helpers), `Verif/<Area>/Props.lean` (property theorems and, beside
each, an `example` showing that its hypotheses are met by a concrete non-trivial case).
`seeded/LOG.jsonl` records the attempts to break the theorems: wrong programs tried in a scratch copy, the theorems
that stopped proving, and the theorems tightened because none did.

## 2. Trusted base

* Lean 4.33's kernel.
* Axioms: every theorem depends on at most `propext`, `Classical.choice`, `Quot.sound` (Lean's standard three) — no others,
  no `sorry`, no `native_decide`, no `bv_decide`.
* The reading of the Python text: nothing was executed. Each definition cites what it models.
* **Numbers.** numpy `float64` values are modelled by elements of a (linearly ordered) field, of ℝ or of ℂ:
  rounding, overflow, NaN and signed zeros are outside the model (non-finite solver output is a separate outcome in the AC
  driver). Where infinities matter (bounds) they are modelled explicitly (`EReal`, `WithTop`, `Option`). Tables are lists or
  finite families of records with one field per named column of `idx_bus`, `idx_gen`, `idx_brch`, `idx_cost`, `idx_dcline`;
  further columns are carried as an opaque payload. Tables are float arrays, except in `Verif/DType` (C113 ff.) and where a `cast` is a parameter: a table written
  with whole numbers only is an integer array and stores into it are truncated.
* **External calls** are parameters: `spsolve`/`splu`/`solve` (an arbitrary function, or one assumed to return a
  solution when the theorem says so), `argsort` (any permutation that sorts), user callbacks (arbitrary functions),
  the OPF inside `uopf` (arbitrary oracle). The file system is not modelled except in `Verif/SaveText` (C115: a map from names to texts, with a model of the Python subset case files are written in; real numbers there are exact rationals, so the rounding of a decimal text to a double on reading is outside the model); of the console output the numbers in `printpf` are, and which columns are
  written.
* **Python exceptions** are modelled as values (`Except`/`Option`) where a branch of the modelled function raises. Where the
  behaviour depends on the numpy/scipy version (float indices, negation of boolean matrices) the version is a parameter.
* **Aliasing/mutation**: in-place mutation is modelled by returning the new value; where aliasing is observable
  (opf_model default varsets, option dictionaries, interface map, `Sbus` of gausspf) it is modelled explicitly.

## 3. Properties: what is modelled, how it is proved, what is missing

Status `proved`: the theorem says all of the property. `partial`: the theorem suffixed `_partial` says what holds, and a
`_negation` theorem (when the code contradicts the property) shows the rest is false of the code. Statements of the properties: `properties.jsonl`.

| id | property | status | model of | how proved | theorems | missing / remarks |
|----|----|----|----|----|----|----|
| C91 | The printed summaries balance and agree with the tables | partial | `printpf` (system, area and bus summaries), calls in `runpf`, `runopf` | the loss formula of `printpf` equals the sum of both flows of the branch model plus charging; totals are regrouped by bus number and by area; balances from C86/C87 | `Printpf.C91_system_ac`, `Printpf.C91_system_dc`, `Printpf.C91_bus_table`, `Printpf.C91_area_active`, `Printpf.C91_area_reactive_partial`, `Printpf.C91_area_totals`, `Printpf.C91_runpf_ac`, `Printpf.C91_runpf_dc`, `Printpf.C91_runopf_ac`, `Printpf.C91_runopf_dc_partial`, `Printpf.C91_area_reactive_negation`, `Printpf.C91_isolated_negation`, `Printpf.C91_dc_shunt_negation` | false of the code in three places, each with a proved counterexample: the reactive area balance counts the charging of tie lines twice, demand of isolated buses is included, and after a DC OPF shunts are printed at the voltage of the input table; everything else is proved, end to end for runpf and runopf |
| C92 | The area summary lists every area once | partial | `printpf` (area list) | run-length structure of a sorted list | `Printpf.C92_partial`, `Printpf.C92_negation` | false if the smallest area number is carried by a single bus (C92_negation); right otherwise |
| C93 | Printing does not change the results | partial | `printpf` (DC zeroing), calls in `runpf`, `runopf` | inversion of the model | `Printpf.C93_partial`, `Printpf.C93_runs_partial`, `Printpf.C93_negation`, `Printpf.C93_negation_opf` | false for DC calculations unless OUT_ALL is 0: columns of the returned tables are zeroed (C93_negation); true for AC |
| C94 | The constraint sections list the binding limits | partial | `printpf` (constraint sections) | inversion; the operator precedence is part of the model | `Printpf.C94_lists`, `Printpf.C94_partial`, `Printpf.C94_negation` | false for the voltage section with option 1, which is never printed (operator precedence); right for all other sections and options |
| C95 | runopf() returns its results whatever they are | partial | `printpf` (dispatchable load sections) | a listed dispatchable load is formatted with an array instead of a tuple, which raises | `Printpf.C95_partial`, `Printpf.C95_exact_partial`, `Printpf.C95_negation`, `Printpf.C95_runopf_negation` | false as soon as a dispatchable load is at a limit (C95_negation); right without dispatchable loads in service; C95_exact_partial says exactly when printing goes through |
| C96 | A successful DC OPF returns the cheapest dispatch | proved | `opf` for `PF_DC` with costs, angle limits and piecewise linear helper variables, from the caller's tables to the caller's tables | another dispatch is mapped to a feasible point of the assembled problem; convexity and the optimality conditions (C83, C84) bound the objective from below | `Opf.C96_least_cost`, `Opf.C96_angles`, `Opf.C96_completes`, `Opf.C96_accepts` | without user constraints and user costs; gap explicit in the tolerances, multipliers and distance; success is reached for some tolerances; no dispatch within the limits is rejected, at any feasibility tolerance above rounding (C96_accepts) |
| C97 | At the returned prices no generator gains by producing otherwise | proved | the run of C96 | stationarity at the generator's variable with the multipliers split by sign gives price minus marginal cost; the slope rows of the piecewise linear cost bound the cost of any other output | `Opf.C97_no_gain` | without user constraints and user costs; gap explicit in the tolerances and multipliers |
| C98 | A shadow price is reported only on a limit that binds | partial | the run of C96 with opf_execute.py:136-140 | the multipliers in the tables are traced through splitting, scaling and the row order of the constraints; complementarity of the accepted point bounds each product | `Opf.C98_signs_partial`, `Opf.C98_slack_partial`, `Opf.C98_stale`, `Opf.C98_negation` | false for the angle multiplier columns of branches without angle limits, which keep whatever the input had; proved for everything else |
| C100 | The ways to call opf() mean the same problem | partial | `opf_args`, `opf_args2` over abstract values; `loadcase` and the case file are parameters | the forms agree by computation; the dictionary is described key by key | `Opf.Args.C100_case_forms`, `Opf.Args.C100_table_forms`, `Opf.Args.C100_tables_case`, `Opf.Args.C100_file_partial`, `Opf.Args.C100_file_loses`, `Opf.Args.C100_file_negation`, `Opf.Args.C100_counts`, `Opf.Args.C100_arguments`, `Opf.Args.C100_case_fills`, `Opf.Args.C100_dictionary_partial`, `Opf.Args.C100_empty_negation` | a case given by file name loses the fields opf does not handle; constraints given as empty do not replace those of the case: both negations proved |
| C101 | Nested case fields survive the conversion to internal numbering and back | partial | `e2i_field`, `i2e_field` on nested dictionaries (trees), with the `e2i_data`/`i2e_data` of C06 | exact condition for the loop that creates dictionaries; induction over the list of fields | `Index.C101_converts`, `Index.C101_internal_partial`, `Index.C101_external_partial`, `Index.C101_round_trip_partial`, `Index.C101_deep_negation`, `Index.C101_spurious_negation` | true for fields and fields of fields; for deeper nesting the conversion raises once something was saved under the first key, and empty entries are left among the saved data: both negations proved |
| C99 | Prices differ between buses only because limits bind | proved | the run of C96 | stationarity at the angles; the rows of balance, flow and angle limits are traced to the columns of the tables; summation by parts over the network for the last two | `Opf.C99_prices`, `Opf.C99_rent`, `Opf.C99_uniform` | without user constraints and user costs; bounds explicit in the tolerances, multipliers and susceptances |
| C89 | The fast-decoupled power flow solves the decoupled systems it is documented to solve | proved | `makeB`, both half-iterations of `fdpf`, the call in `runpf` | imaginary part of the rows of `Ybus` of the edited network; a solved row-and-column selection is the matrix applied to the update | `Network.C89_Bp`, `Network.C89_Bp_shift`, `Network.C89_Bpp`, `Solvers.C89_p_step`, `Solvers.C89_q_step`, `Runpf.C89_runpf` | B' keeps phase shifters: C89_Bp says what it is without them, C89_Bp_shift in general |
| C90 | The continuation corrector takes Newton steps on the augmented system | partial | one iteration of `cpf_corrector` | derivative of the balances along a line in angles, magnitudes and lambda (C69 with the extra column); C62 for the last row | `Cpf.C90_balance`, `Cpf.C90_parameterisation_partial` | partial only where lambda has not moved from the previous point and the parameterisation is natural or arc length: there the reported derivative is wrong (C62_arc_negation) |
| C01 | External/internal conversion round trip | proved | `ext2int`, `int2ext` on tables of records | closed form of the conversion on well-formed cases; filter/permutation/scatter lemmas | `Index.C01_round_trip` | an empty areas table is dropped by the conversion (stated in the theorem) |
| C02 | Internal numbering is consecutive and consistent | proved | `ext2int` | correspondence `Corr` between external and internal rows | `Index.C02_consecutive_consistent`, `Index.C02_stored_maps` | — |
| C03 | Exactly the in-service equipment is kept | proved | `ext2int` | correspondence `Corr` | `Index.C03_exactly_in_service` | — |
| C04 | Results land on the right external rows | proved | `int2ext` | scatter lemmas on the correspondence | `Index.C04_results_land_on_right_rows` | — |
| C05 | Conversions are idempotent and safe in any order | proved | `ext2int`, `int2ext` call histories | induction over histories | `Index.C05_histories`, `Index.C05_external_first` | a never-converted case cannot be converted to external: the call raises |
| C06 | Reordering user data between numberings | proved | `get_reorder`, `set_reorder`, `e2i_data`, `i2e_data`, `e2i_field` | induction over the ordering list | `Index.C06_data_reordering`, `Index.C06_round_trip`, `Index.C06_fill_is_cast`, `Index.C06_case_fields` | dense data; for data of another dtype the fill is cast (C06_fill_is_cast) |
| C07 | Sparse user data is reordered like dense data | partial | sparse branch of `e2i_data` | witness; the sparse result is discarded | `Index.C07_partial`, `Index.C07_sparse_unchanged`, `Index.C07_negation` | false of the code: sparse data with a list of orderings comes back unchanged; negation proved |
| C08 | Old-style numbering conversion round trip | partial | `ext2int1`, `int2ext1` (in `ext2int.py`, `int2ext.py`) | map inversion | `Index.C08_roundtrip_partial`, `Index.C08_negation_areas` | inverse raises for any nonempty areas table (negation proved); rest proved |
| C09 | Dangling bus references are not silently re-attached | partial | `ext2int` with an unknown bus number | witness; partial theorem for the raising cases | `Index.C09_partial`, `Index.C09_negation` | false of the code for missing numbers below the largest bus number (negation proved) |
| C10 | Bus classification is a partition with a reference bus | proved | `bustypes` | case analysis | `Bustypes.C10_classification`, `Bustypes.C10_failure` | — |
| C11 | Polynomial cost evaluation and derivatives | proved | `polycost` | induction over coefficient lists; Mathlib `Polynomial.derivative` | `Cost.C11_polycost`, `Cost.C11_short_row` | — |
| C12 | Piecewise linear cost evaluation | proved | `totcost` | induction over segments | `Cost.C12_totcost`, `Cost.C12_single_point` | — |
| C13 | Cost modification laws | partial | `modcost`, `polyshift` | polynomial identities, segment lemmas | `Cost.C13_scaleF`, `Cost.C13_shiftF`, `Cost.C13_shiftX`, `Cost.C13_scaleX_partial`, `Cost.C13_scaleX_poly`, `Cost.C13_negation` | SCALE_X with a negative factor on a piecewise linear row is false of the code (negation proved); everything else proved |
| C14 | Splitting active and reactive costs | proved | `pqcost` | list lemmas | `Cost.C14_pqcost` | — |
| C15 | Polynomial to piecewise linear conversion | partial | `poly2pwl` | the first assignment raises | `Cost.C15_negation` | false of the code: the conversion raises for every nonempty table (proved); nothing of the property remains to prove |
| C16 | Cost epigraph constraints are exact | partial | `makeAy` | convexity by induction over segments | `Cost.C16_partial`, `Cost.C16_reactive_columns`, `Cost.C16_negation` | active costs proved; reactive cost rows are attached to the wrong generator (negation proved) |
| C17 | One-segment costs become linear without changing value | proved | one-segment conversion of `opf_setup` | algebra | `Cost.C17_one_segment` | — |
| C22 | Admittance matrix obeys Kirchhoff's current law | proved | `makeYbus` | finite sums over branches | `Network.C22_kirchhoff` | — |
| C23 | Out-of-service branches do not influence the admittances | proved | `makeYbus` | finite sums | `Network.C23_out_of_service`, `Network.C23_symmetric`, `Network.C23_tap_zero` | — |
| C24 | DC model is lossless | proved | `makeBdc` | finite sums | `Network.C24_lossless` | — |
| C25 | Power transfer distribution factors | proved | `makePTDF` | linear algebra with the solver contract | `Network.C25_single_slack`, `Network.C25_weights`, `Network.C25_matrix` | linear solver abstracted by its contract |
| C26 | Line outage distribution factors | proved | `makeLODF` | rank-one update of the DC equations | `Network.C26_outage` | linear solver abstracted by its contract |
| C27 | Bus injections sum generation minus load | proved | `makeSbus` | sums over generators | `Network.C27_injections` | — |
| C28 | Slack generator balances the system | partial | `pfsoln` | sums over the generators at a bus | `Pfsoln.C28_slack`, `Pfsoln.C28_reactive_partial`, `Pfsoln.C28_reactive_exact`, `Pfsoln.C28_negation`, `Pfsoln.C28_branch_flows` | reactive shares add up exactly only when EPS is 0; with EPS > 0 the exact deviation is proved, and its non-zeroness |
| C29 | DC power flow solves the DC equations | proved | `dcpf`, DC branch of `runpf` | linear algebra with the solver contract | `Pfsoln.C29_dc` | linear solver abstracted by its contract |
| C38 | Variable and constraint blocks tile the problem | proved | `opf_model` index bookkeeping | histories of operations | `OpfModel.C38_tiling`, `OpfModel.C38_stable` | — |
| C39 | Duplicate block names are rejected | partial | `opf_model` duplicate names | witness | `OpfModel.C39_negation`, `OpfModel.C39_partial` | false of the code: a duplicate name only prints a message and moves the existing block (negation proved); other names are undisturbed |
| C40 | Assembled variable bounds | proved | `opf_model.getv` | refinement to a list of blocks | `OpfModel.C40_getv` | — |
| C41 | Assembled linear constraints mean what the blocks say | proved | `opf_model.linear_constraints` | refinement, block placement | `OpfModel.C41_linear` | for blocks that fit the model (the code only prints a message otherwise) |
| C42 | Default variable set of a constraint is frozen | partial | `opf_model` default variable sets | aliasing modelled explicitly | `OpfModel.C42_partial`, `OpfModel.C42_negation` | false of the code for the default variable set (negation proved: assembly raises); proved for named sets and for later empty blocks |
| C43 | User cost parameters are kept | partial | `opf_model.build_cost_params` | block placement | `OpfModel.C43_partial`, `OpfModel.C43_negation` | N, Cw, H kept (proved); dd, rh, kk, mm are stored under the literal key "name" and lost (negation proved) |
| C44 | Reading cost parameters does not change the model | partial | `opf_model.get_cost_params` | case analysis | `OpfModel.C44_partial`, `OpfModel.C44_negation` | false of the code for queries by name (negation proved) |
| C45 | User cost value | proved | `opf_model.compute_cost` | algebra against a piecewise specification | `OpfModel.C45_value`, `OpfModel.C45_blocks` | for non-negative dead zones, as documented |
| C34 | Interior point iterates stay strictly interior | proved | `pips` main loop | invariant by induction | `Pips.C34_positive`, `Pips.C34_returned_nonneg`, `Pips.C34_gamma` | over the reals (no rounding) |
| C35 | Interior point success means KKT tolerances met | proved | `pips` termination test and result | invariant | `Pips.C35_success`, `Pips.C35_status`, `Pips.C35_failure` | — |
| C36 | Bound/linear constraint splitting is exact | proved | `pips` constraint splitting and multiplier packing | case analysis per row | `Pips.C36_split`, `Pips.C36_exact`, `Pips.C36_multipliers`, `Pips.C36_covered` | — |
| C68 | Interior point search direction is the Newton direction | proved | `pips` Newton step | block elimination | `Pips.C68_newton` | linear solver abstracted by its contract |
| C37 | Solver dispatch | partial | `qps_pypower`, `opf_execute` dispatch | case analysis | `Dispatch.C37_negation`, `Dispatch.C37_partial`, `Dispatch.C37_auto_negation`, `Dispatch.C37_ac` | false of the code for qps_pypower (`elif 700:` accepts every code; negation proved); documented codes other than 100 and 300 reach their solver |
| C67 | Per-block user cost values after an OPF | partial | `opf_execute` per-block user costs, `opf_model.compute_cost` | witness; proof for one block | `OpfModel.C67_negation`, `OpfModel.C67_partial` | false of the code for two or more non-empty blocks (negation proved: it raises); proved for one block |
| C18 | DC OPF objective equals total cost | partial | objective of `dcopf_solver` | matrix algebra against the cost specification | `OpfCost.C18_partial`, `OpfCost.C18_negation` | false of the code with user offsets rhat or NCOST other than 2/3 (negation proved with the exact difference); proved otherwise |
| C19 | AC OPF cost function equals total cost | partial | `opf_costfcn` | sums; `HasDerivAt` | `OpfCost.C19_value_partial`, `OpfCost.C19_gradient`, `OpfCost.C19_negation`, `OpfCost.C19_raises` | value false of the code when row 0 is the only polynomial row (negation proved); gradient proved for all tables |
| C20 | Total load sums each zone | partial | `total_load` | sums over buses and generators | `Load.C20_partial`, `Load.C20_grand_partial`, `Load.C20_negation` | proved; with dispatchable loads it needs a scipy that negates boolean matrices, otherwise the call raises (negation proved) |
| C21 | Load scaling hits its target | partial | `scale_load` | sums; case analysis on the options | `Load.C21_factor_partial`, `Load.C21_quantity_partial`, `Load.C21_quantity_total_partial`, `Load.C21_impossible`, `Load.C21_negation_default`, `Load.C21_negation_int`, `Load.C21_negation_scipy` | proved for given zones (or area zones) and float targets; false for the default single zone (raises) and integer target arrays (truncated factors), negations proved |
| C58 | Bus injection Jacobian is the true derivative | proved | `dSbus_dV` | `HasDerivAt` over ℝ → ℂ | `Derivs.C58` | — |
| C59 | Branch flow and current Jacobians are the true derivatives | proved | `dSbr_dV`, `dIbr_dV`, `dAbr_dV` | `HasDerivAt` | `Derivs.C59_power`, `Derivs.C59_current`, `Derivs.C59_sq_power`, `Derivs.C59_sq_current`, `Derivs.C59_sq_real` | — |
| C60 | Second derivatives are the true Hessians | proved | `d2Sbus_dV2`, `d2Sbr_dV2`, `d2Ibr_dV2`, `d2ASbr_dV2`, `d2AIbr_dV2` | `HasDerivAt` of the first derivatives | `Derivs.C60_bus`, `Derivs.C60_flow`, `Derivs.C60_current`, `Derivs.C60_sq_flow`, `Derivs.C60_sq_current`, `Derivs.C60_sq_real` | — |
| C30 | Newton power flow: converged means solved | proved | `newtonpf` | loop invariant, arbitrary linear solver | `Solvers.C30`, `Solvers.C30_raises`, `Solvers.C30_start` | for every linear solver; the call raises exactly when there is neither a PV nor a PQ bus |
| C31 | Gauss-Seidel power flow: converged means solved | proved | `gausspf` | loop invariant | `Solvers.C31`, `Solvers.C31_Sbus`, `Solvers.C31_update` | the caller's Sbus is mutated at PV buses (stated in C31_Sbus) |
| C32 | Fast-decoupled power flow: converged means solved | proved | `fdpf` | loop invariant, arbitrary factorisations | `Solvers.C32`, `Solvers.C32_raises` | the call raises when there is no PQ bus |
| C69 | Newton power flow update is the Newton step | proved | `newtonpf` step | the step solves the linearised equations (`HasDerivAt`) | `Solvers.C69` | — |
| C33 | Reactive limit enforcement | partial | Q-limit loop of `runpf` | induction over the loop | `Runpf.C33_partial`, `Runpf.C33_negation` | false of the code: any violation makes the enforcement loop raise (negation proved); when the call returns, its result is that without enforcement and all limits hold |
| C65 | Out-of-service equipment reports zero results | proved | result zeroing in `runpf`, `opf` | list lemmas | `Runpf.C65`, `Runpf.C65_defined` | — |
| C70 | A successful AC power flow is consistent end to end | proved | AC branch of `runpf` end to end | composition of C27, C28, C30 | `Runpf.C70`, `Runpf.C70_all`, `Runpf.C70_setpoints`, `Runpf.C70_flows`, `Runpf.C70_no_false_success` | — |
| C71 | Result columns exist before they are written | partial | result column padding | list lemmas | `Runpf.C71_partial`, `Runpf.C71_negation`, `Runpf.C71_opf` | false of the power flow driver for exactly 16 branch columns (negation proved); proved otherwise and for the OPF driver |
| C46 | User callback registry | proved | `add_userfcn`, `remove_userfcn`, `run_userfcn` | histories | `Userfcn.C46_registry`, `Userfcn.C46_add`, `Userfcn.C46_run`, `Userfcn.C46_run_print` | — |
| C47 | Switching an extension on then off restores the case | proved | `toggle_*` | registry algebra | `Userfcn.C47`, `Userfcn.C47_on` | — |
| C48 | Option override | proved | `ppoption` | finite maps on an explicit heap | `CaseIO.C48`, `CaseIO.C48_sequence` | — |
| C49 | Version-1 case conversion keeps the data | partial | `ppc_1to2` | list slicing | `CaseIO.C49_partial`, `CaseIO.C49_negation`, `CaseIO.C49_declared_ignored` | false of the code for tables with solution columns (negation proved for all of them); proved for tables without |
| C50 | Saved cases keep all columns that are present | partial | column selection of `savecase` | list slicing | `CaseIO.C50_bus`, `CaseIO.C50_gen`, `CaseIO.C50_branch_partial`, `CaseIO.C50_branch_negation`, `CaseIO.C50_cost_partial`, `CaseIO.C50_cost_negation`, `CaseIO.C50_reload` | false for branch tables of 19 or 20 columns and for cost tables with spare columns (negations proved); proved otherwise |
| C51 | Unit decommitment never makes things worse | partial | `uopf`, `fairmax` | invariant over the search, arbitrary OPF | `Uopf.C51_partial`, `Uopf.C51_objective`, `Uopf.C51_only_off`, `Uopf.C51_terminates`, `Uopf.C51_returns`, `Uopf.C51_negation` | the up-front decommitment always raises (negation proved); the rest is proved for every OPF behaviour |
| C52 | Branch angle limits | proved | `makeAang` | row values | `Constr.C52`, `Constr.C52_ignored` | — |
| C53 | Constant power factor for dispatchable loads | partial | `makeAvl` | trigonometry of the power factor row | `Constr.C53_partial`, `Constr.C53_negation` | ambiguous limits are reported, not rejected (negation proved); equivalence proved for unambiguous loads |
| C54 | Capability curve constraints | proved | `makeApq`, `hasPQcap` | half-plane algebra | `Constr.C54`, `Constr.C54_rows`, `Constr.C54_reversed` | for valid capability data (the conditions the code itself reports); C54_reversed shows what invalid data does |
| C55 | Interface flow limits | partial | `toggle_iflims` callbacks | row values; witnesses | `Iflims.C55_partial`, `Iflims.C55_first_dropped`, `Iflims.C55_unsorted`, `Iflims.C55_map_not_restored` | false of the code when an interface contains the first in-service branch, for unsorted limit tables and for the restored map (negations proved); proved otherwise |
| C57 | Reserve requirements | proved | `toggle_reserves` callbacks | row values, sums | `Reserves.C57`, `Reserves.C57_results`, `Reserves.C57_price` | C57_price shows the reported price is the sum over zones, not the documented maximum |
| C56 | DC line dummy generators | partial | `toggle_dcline` callbacks | row values; witnesses | `Dcline.C56_injections`, `Dcline.C56_bus_types`, `Dcline.C56_coupling`, `Dcline.C56_partial`, `Dcline.C56_results_partial`, `Dcline.C56_zero_negation`, `Dcline.C56_float_negation`, `Dcline.C56_cost_negation`, `Dcline.C56_outage_negation` | proved for numpy accepting float indices, no DC line costs, PMIN other than 0 and no outages in OPF results; the negations are proved for the other cases |
| C61 | Continuation corrector: converged means on the curve | proved | `cpf_corrector` | loop invariant | `Cpf.C61` | — |
| C62 | Continuation parameterisation equation and its gradient | partial | `cpf_p`, `cpf_p_jac` | `HasDerivAt` | `Cpf.C62_value`, `Cpf.C62_derivative_partial`, `Cpf.C62_arc_negation` | false of the code for the lambda derivative of the arc length at an unmoved point (negation proved: reported 1, true 0) |
| C63 | Continuation step control and stopping | partial | `runcpf` loop | trace invariant; step bounds; witness | `Cpf.C63`, `Cpf.C63_step`, `Cpf.C63_final_step`, `Cpf.C63_arrives`, `Cpf.C63_overshoot_negation`, `Cpf.C63_overshoot_witness`, `Cpf.C63_identical_negation`, `Cpf.C63_controlled` | false of the code: the corrected point can overshoot the target, and identical cases raise (negations proved) |
| C72 | Continuation predictor follows the tangent | proved | `cpf_predictor` | linear algebra with the solver contract | `Cpf.C72` | linear solver abstracted by its contract |
| C64 | Splitting capability-curve multipliers | partial | `update_mupq`, `opf_execute` multipliers | sums of scattered rows | `Mupq.C64_partial`, `Mupq.C64_none`, `Mupq.C64_negation` | false of the code when only one kind of sloped constraint is present: it raises (negation proved); proved when both or none are present |
| C66 | Linear index conversion | proved | `sub2ind` | arithmetic | `Util.C66_flatten`, `Util.C66_injective` | — |
| C73 | AC OPF constraints mean power balance and branch limits | proved | `opf_consfcn` values | algebra, composition with C27 | `OpfNl.C73_balance`, `OpfNl.C73_mismatch`, `OpfNl.C73_limits` | — |
| C74 | AC OPF constraint Jacobians are the derivatives of the constraints | proved | `opf_consfcn` Jacobians | composition of C58, C59 with the placement of blocks | `OpfNl.C74_dg`, `OpfNl.C74_dh`, `OpfNl.C74_dh_const`, `OpfNl.C74_negation_offline` | generators in service, as after ext2int; C74_negation_offline shows this is needed |
| C75 | AC OPF Hessian is the second derivative of the Lagrangian | partial | `opf_hessfcn` | composition of C60 with polynomial and user cost second derivatives | `OpfNl.C75_partial`, `OpfNl.C75_gradient`, `OpfNl.C75_negation_qcost`, `OpfNl.C75_negation_unconstrained` | the code raises with reactive cost rows or without a constrained branch (negations proved); proved otherwise |
| C76 | Interior point solver: bounds and linear constraints | proved | `pips` with bounds and linear rows | composition of C34, C35 with the splitting of C36: regrouping of sums | `Pips.C76_returns`, `Pips.C76_feasible`, `Pips.C76_signs`, `Pips.C76_absent`, `Pips.C76_objective`, `Pips.C76_stationary` | tolerances relative to the size of the solution and internal slacks/multipliers, as in the code |
| C77 | A successful DC OPF is a feasible dispatch | proved | `opf_setup` (DC), `dcopf_solver`, `qps_pips` | composition of C76 with C38–C41 (assembly) and C24 (network model) | `Opf.C77_completes`, `Opf.C77_balance`, `Opf.C77_flow_limit`, `Opf.C77_dispatch`, `Opf.C77_reference`, `Opf.C77_flows`, `Opf.C77_extra`, `Opf.C77_cost` | limits beyond 1e10 per unit count as absent; solved by pips (other solvers not modelled) |
| C78 | DC OPF prices | proved | `dcopf_solver` multipliers | C76 stationarity column by column, coefficients by unit vectors | `Opf.C78_generator_price`, `Opf.C78_congestion`, `Opf.C78_signs` | — |
| C79 | A successful AC OPF is a feasible operating point | proved | `opf_setup` (AC), `pipsopf_solver` | composition of C76 with C38–C41 (assembly), C73 (constraints), C22 (network) and C19 (cost) | `Opf.C79_balance`, `Opf.C79_flows`, `Opf.C79_flow_limit`, `Opf.C79_limits`, `Opf.C79_reference`, `Opf.C79_extra`, `Opf.C79_cost` | limits beyond 1e10 per unit count as absent; solved by pips; C79_cost where opf_costfcn is right (C19); quantities per internally ordered case |
| C80 | AC OPF prices | proved | `pipsopf_solver` multipliers | C76 stationarity, C74 and C19 turn Jacobian entries into derivatives | `Opf.C80_generator_price`, `Opf.C80_polynomial_price`, `Opf.C80_network_prices`, `Opf.C80_signs` | C80_network_prices asks for positive voltage magnitudes, generators of the internal table in service and, with user costs, a point off the edges of dead zones |
| C81 | The AC OPF runs on every well-posed case | partial | `pipsopf_solver` | shape conditions of the callbacks; C75 negations | `Opf.C81_completes_partial`, `Opf.C81_negation` | false of the code without a limited branch or with reactive cost rows (negation proved); proved otherwise |
| C82 | Success of the interior point solver on a convex problem means a global minimum | proved | `pips` with bounds and linear constraints | Lagrangian duality from C76 stationarity, signs and complementarity; slack `z` within tolerance of `-h` by an invariant of the iteration | `Pips.C82_optimal` | callbacks convex in the sense of lying above their tangents, with the gradients supplied |
| C83 | The DC optimal power flow finds the cheapest dispatch | proved | `opf_setup` helper variables and `ycon`, `makeAy`, the objective of `dcopf_solver`, `totcost` | C82 on the stacked problem; C16 and C18 turn helper variables and matrices into costs | `Opf.C83_completes`, `Opf.C83_reported_cost`, `Opf.C83_least_cost` | solved by pips; polynomial costs of NCOST 2 or 3 (others are wrong in the code, C18); the user offset of C18 is subtracted; right hand sides of cost constraints below 1e10 |
| C84 | Shadow prices are paid only at binding limits | proved | `pips`, `dcopf_solver`, `pipsopf_solver` multipliers | termination test on complementarity, one term of a sum of nonnegative terms, followed through sign splitting and block positions | `Pips.C84_binding`, `Opf.C84_dc`, `Opf.C84_dc_extra`, `Opf.C84_ac` | AC branch flow limits are nonlinear and nonconvex: only their feasibility and signs are covered (C79, C80) |
| C85 | At the reported prices no generator would rather produce something else | proved | `dcopf_solver`, `pipsopf_solver`, `makeAy` | C78/C80 stationarity, C84 complementarity and convexity along the generator's own variables; each row of `Ay` is shown to belong to one generator | `Opf.C85_polynomial`, `Opf.C85_piecewise`, `Opf.C85_ac` | AC: generators with polynomial costs and no user costs |
| C86 | opf() returns a balanced, feasible solution in the caller's own tables | partial | `opf` end to end: `ext2int`, `opf_setup`, `dcopf_solver`/`pipsopf_solver`, `opf_execute` writes, `int2ext`, zeroing | C02-C04 give the row correspondence between caller and internal tables (`Bridge`); C77/C79 on the internal tables; sums over rows are transported along the correspondence | `Opf.C86_dc`, `Opf.C86_dc_flows`, `Opf.C86_dc_inputs`, `Opf.C86_dc_untouched`, `Opf.C86_dc_completes`, `Opf.C86_ac`, `Opf.C86_ac_flows`, `Opf.C86_ac_inputs`, `Opf.C86_ac_completes_partial` | partial only in that an AC run without a limited branch or with reactive costs raises (C81), and that C86_dc_completes is for the bare problem: with angle limits and piecewise linear costs see C96, with reserves C106, with user data C109, with interface limits C112 |
| C87 | runpf() returns a solved power flow in the caller's own tables | proved | `runpf` end to end: `ext2int`, `bustypes`, `runAC`/`dcpf`, `pfsoln` writes, `int2ext`, zeroing | row correspondence of C86 extended by the bus classification (`PfBridge`); C70 on the internal tables; C88 for the DC system | `Runpf.C87_ac`, `Runpf.C87_ac_reactive`, `Runpf.C87_ac_voltages`, `Runpf.C87_ac_dispatch`, `Runpf.C87_ac_flows`, `Runpf.C87_ac_inputs`, `Runpf.C87_ac_finite`, `Runpf.C87_ac_completes`, `Runpf.C87_dc`, `Runpf.C87_dc_flows`, `Runpf.C87_dc_dispatch`, `Runpf.C87_dc_inputs`, `Runpf.C87_dc_completes` | with ENFORCE_Q_LIMS set a solution that violates a limit makes the code raise, one that does not is covered; the fast-decoupled tolerance is scaled by VM, as in the code; DC balance for tied networks with positive reactances and a linear solver that solves regular systems |
| C88 | The DC power flow of a connected network has exactly one solution | proved | `makeBdc`, the system of `dcpf` | the quadratic form of `B` is a sum of squares over branches; a null vector is constant along paths and zero at slack buses; the indicator of an island is a null vector | `Network.C88_regular`, `Network.C88_unique`, `Network.C88_island` | — |
| C102 | A continuation power flow returns power flow solutions between the two cases | proved | `runcpf` from tables to tables: two `ext2int`, trace (C61-C63), `pfsoln` with the base matrices, `int2ext`, placing of the curve | the tables are those of a power flow (C87) on the case at the loading, by an oracle solver that returns the corrected point; base and target rows correspond because conversion looks at the network only | `Cpf.C102`, `Cpf.C102_curve`, `Cpf.C102_inputs`, `Cpf.C102_completes`, `Cpf.C102_identical` | same loading in both cases raises (C102_identical); the trace may run for ever (C102_completes says that it does not raise); the base power flow behind the first point may have failed unnoticed (C63) |
| C103 | The printed counts, capacities, extremes and generator lines are those of the tables | proved | `printpf` (system summary, area summary, generator and dispatchable load sections, options) | filters of joined rows rewritten as counts and sums over the tables; first minimum by induction; area totals by counting each row in the one area of its bus | `Printpf.C103_system`, `Printpf.C103_extremes`, `Printpf.C103_losses`, `Printpf.C103_area`, `Printpf.C103_area_totals`, `Printpf.C103_generators`, `Printpf.C103_options` | area totals need two buses in the first area (see C92); largest losses at an AC operating point |
| C104 | IPOPT is served the values and all derivatives of the optimal power flow | partial | `ipoptopf_solver`: structures `Js`, `Hs`, callbacks `eval_g`, `eval_jac_g`, `eval_h`, on the callbacks of C73-C75 | sparsity patterns as predicates closed under the matrix operations of the derivative formulas; entries outside vanish, inside they are the derivatives of C74, C75 | `Ipopt.C104_values`, `Ipopt.C104_jacobian`, `Ipopt.C104_hessian_partial`, `Ipopt.C104_hessian_quadratic_partial`, `Ipopt.C104_negation_curvature`, `Ipopt.C104_negation_raises`, `Ipopt.C104_negation_unlimited` | values and Jacobian hold; false of the Hessian: a cost whose curvature vanishes at the starting point loses its entry for good (C104_negation_curvature), and callbacks raise without a limited branch or with reactive costs |
| C105 | A successful optimal power flow by IPOPT reports a feasible point with market prices | partial | `ipoptopf_solver` from the model to tables; IPOPT is any function, `Sound` states what is expected of it | rows of the vectors located by position; optimality conditions rescaled to the units of the tables | `Ipopt.C105_balance`, `Ipopt.C105_flows`, `Ipopt.C105_flow_limit`, `Ipopt.C105_limits`, `Ipopt.C105_reference`, `Ipopt.C105_extra`, `Ipopt.C105_cost`, `Ipopt.C105_generator_price`, `Ipopt.C105_polynomial_price`, `Ipopt.C105_network_prices`, `Ipopt.C105_slack`, `Ipopt.C105_split`, `Ipopt.C105_completes_partial`, `Ipopt.C105_negation` | IPOPT is a parameter (Sound); partial only in that the solver raises without a limited branch or with reactive costs (C105_negation), as pipsopf_solver does (C81) |
| C106 | A DC optimal power flow with reserves returns reserves that can be held and meet the requirements | proved | `runopf_w_res` with PF_DC: the reserve callbacks with the conversion of the numbering, `opf_model`, `dcopf_solver` and the packaging of results (`opfDcReserves`) | the callbacks put into a normal form in the caller's rows (`resForm_eq`); blocks of the model located (`start_R`); then C77 on each block | `Opf.C106_tables`, `Opf.C106_reserves`, `Opf.C106_limits`, `Opf.C106_completes`, `Opf.C106_none` | limits beyond 1e10 p.u. count as absent; without a providing generator in service the run ends with an exception (C106_none) |
| C107 | Reserve prices and bus prices together support the dispatch and the reserves | proved | as C106 | optimality conditions of the solver at the columns of outputs, helper variables and reserves; complementarity at each limit; energy half and reserve half added with the capacity price cancelling | `Opf.C107_signs`, `Opf.C107_prc`, `Opf.C107_price`, `Opf.C107_equilibrium` | prc is the sum of the shadow prices of the zones of a generator (the documentation says maximum); it is what the zones pay if zones are zeros and ones (C107_prc) |
| C108 | A DC optimal power flow with reserves co-optimises energy and reserves | proved | as C106 | convexity of the objective and the optimality gap of C84, with the alternative turned into a point of the internal problem | `Opf.C108_least_cost` | gap explicit in the tolerances, multipliers and distance |
| C109 | Linear constraints and costs of the user hold for the caller's buses and generators | partial | `opf` with PF_DC and user data `A`, `l`, `u`, `z*`, `N`, `H`, `Cw`: `opf_setup` 184-262, `opf_model` blocks, `build_cost_params`, `dcopf_solver` with the cost rows of the user, packaging of `var`, `lin` and `cost` (`opfDcUser`) | false of the code: counterexample for every successful run (C109_negation); blocks located (`start_z`), each user row rewritten as a row in the caller's tables through the order of internal rows (`RowOrder`); then C77, C82 on these blocks | `Opf.C109_tables`, `Opf.C109_applied`, `Opf.C109_partial`, `Opf.C109_multipliers`, `Opf.C109_dense`, `Opf.C109_noH`, `Opf.C109_completes`, `Opf.C109_accepts`, `Opf.C109_negation` | false of the code (C109_negation): a sparse A or N is not converted to the internal numbering, so its columns act on the internal rows (C109_applied says exactly how); holds when everything is in service and the generators are listed by bus row (C109_partial). Dense matrices raise (C109_dense), costs without H raise (C109_noH), fparm is dropped (C43_negation) |
| C110 | A DC optimal power flow with the user's constraints and costs costs the least | partial | as C109 | convexity of generator and user costs and the optimality gap of C84; counterexample C110_negation | `Opf.C110_applied`, `Opf.C110_partial`, `Opf.C110_negation` | false of the code for the same reason (C110_negation); least cost of the problem actually applied (C110_applied), and of the user's problem when everything is in service and in order (C110_partial) |
| C111 | Results are found under the names of the blocks they belong to | partial | `opf_execute`: choice of the algorithm (`acSolver`), named results (`package`: `cutUp`, `namedCosts`, `insertY`) on the vectors of the modelled solvers (`solDc`, `solAc`) | induction over the list of names with the bookkeeping invariant of `opf_model`; then C77/C79/C84 block by block; bit test for Python's `a == b \| a == c`; `C111_negation`: the parameters left by the first evaluation have too few rows for any later block | `Opf.C111_algorithm`, `Opf.C111_dc_partial`, `Opf.C111_ac_partial`, `Opf.C111_negation` | false of the code (C111_negation): with two non-empty cost sets packaging always raises; proved for at most one, any number of variable and constraint sets; dd, rh, kk, mm are left out of cost sets (C43) |
| C112 | Interface flow limits hold in the returned tables and cost no more than they must | partial | `opf` with the callbacks of `toggle_iflims` (`opfDcIflims`: conversion of the map, formulation, solver, `int2ext` with flows and multipliers) on top of runs with further linear constraints (`addSetup`, `AddRun`) | the converted map is put into the caller's rows (`if_form`); rows of the constraint are flows minus the shift terms; C77/C84 at the block; counterexamples via `C112_accepts` | `Opf.C112_completes`, `Opf.C112_applied`, `Opf.C112_economics`, `Opf.C112_accepts`, `Opf.C112_partial`, `Opf.C112_first_ignored`, `Opf.C112_order_ignored` | false of the code: an interface loses the first branch in service (C112_first_ignored), limits not listed in increasing order go to the wrong interfaces (C112_order_ignored); what is applied is C112_applied/C112_economics for all maps and limits, and the English statement holds for sorted limits and maps without that branch (C112_partial) |
| C113 | A power flow of tables written with whole numbers returns the same results as the same numbers written as decimals | partial | `runpf` with the element type of `gen` (`runpfAcT`, `runpfDcT`: every store into `QG`, `PG` of pfsoln.py and runpf.py:142 goes through `Elem.put`) | float: equal to the run of C87; integer: both runs written side by side into the same rows (`two_bridges`); the slack loop on whole numbers is the float loop for truncated requirements (`newPGT_int`); error of the reactive shares bounded sum by sum; counterexample for every demand | `DType.C113_float`, `DType.C113_dc`, `DType.C113_dc_completes`, `DType.C113_dc_partial`, `DType.C113_ac`, `DType.C113_ac_completes`, `DType.C113_ac_partial`, `DType.C113_negation`, `DType.C113_negation_half` | false of the code: outputs are stored in the caller's integer table and lose their fractions, so the tables do not balance at the slack bus (C113_negation); outcome, voltages and flows are the same and the loss is bounded (C113_dc, C113_ac, C113_dc_partial, C113_ac_partial) |
| C114 | A cost table of whole numbers means the costs it shows | partial | `opf` (DC) with the element type of `gencost` (`opfDcEconT`: the replacement of one-segment costs writes into the table, `storeRow`) | replacing cost rows commutes with ext2int, int2ext and the writing of results (`opfDc_map`), so the run is the run of C96 on the table with the stored rows; then C96 and the error of each line | `DType.C114_float`, `DType.C114_whole`, `DType.C114_completes`, `DType.C114_partial`, `DType.C114_negation` | false of the code: slope and intercept of one-segment costs are stored in the integer table and lose their fractions (C114_negation: every successful run reports 0 although each dispatch costs at least 5 $/h); right for float tables and for whole slopes and intercepts (C114_float, C114_whole); otherwise C96 up to one $/MWh and one $/h per such generator (C114_partial) |
| C115 | A case saved to a Python file is the same case when it is loaded | partial | `savecase` to a `.py` file character by character (`saveText`), `%d`, `%.9g`, `%.4f` of exact rationals, infinities and NaN (`NumModel`), a lexer with indentation, a parser and an evaluator for the Python the file is written in (`PyModel`), and `loadcase` by name (`Verif/SaveText`) | digits of the printed numbers read back (`NumRead`), nearest by the rounding of half to even (`NumRound`); token by token through the lexer (`LexLemmas`), through the parser (`ParseLemmas`), statement by statement through the evaluator (`FileLemmas`, `CaseLemmas`) | `SaveText.C115_partial`, `SaveText.C115_kept`, `SaveText.C115_stable`, `SaveText.C115_integer`, `SaveText.C115_infinite`, `SaveText.C115_zl`, `SaveText.C115_user`, `SaveText.C115_name`, `SaveText.C115_negation` | false of the code: infinite or undefined numbers (C115_infinite, C115_negation) and a lower bound zl (C115_zl) give a file that cannot be loaded, user matrices A, N cannot be saved (C115_user), some names cannot be loaded (C115_name), and a generator table of whole values comes back as integers (C115_integer); proved for finite cases of the printed shapes with a usable name (C115_partial, digits in C115_kept, stability in C115_stable); the .mat path and user callbacks are not modelled |
| C116 | A loaded case is the caller's own, and a case that cannot be loaded is said by its code | partial | `loadcase` with objects in memory: references, `deepcopy`, arguments of each type, resolution of names, MAT and Python files as arbitrary actions on memory that return or raise, the check of the keys, conversion to version 2, all exits (`Verif/Loadcase`) | separation of memory into old and new objects kept by every step (`Sep`), equality of contents by induction on depth (`eq_copy`); case analysis of the exits for the codes | `Loadcase.C116_own`, `Loadcase.C116_file_own`, `Loadcase.C116_case`, `Loadcase.C116_again`, `Loadcase.C116_list`, `Loadcase.C116_codes_partial`, `Loadcase.C116_absent`, `Loadcase.C116_argument`, `Loadcase.C116_syntax`, `Loadcase.C116_missing`, `Loadcase.C116_missing_dict`, `Loadcase.C116_run`, `Loadcase.C116_negation` | ownership, contents, reloading (generator tables of at least ten columns) and the order of separate tables are proved; the codes are proved in one direction (C116_codes_partial: a returned code means what is said) and for absent files (C116_absent); false of the code: code 1 is never returned (C116_argument), syntax errors and missing tables raise instead of code 5 (C116_syntax, C116_missing, C116_negation), and no caller looks at the codes (C116_run) |
| C117 | A run leaves the case it was given as it was | partial | programs as sequences of reads, writes, deletions and copies on memory (`run`), `runpf`/`runcpf` as loading followed by any such sequence, `opf_args2` and the first lines of `opf` on memory, the main loop of `uopf` with the tables in the caller's dictionary (`Verif/Caller`); that the functions use their case argument in no other way is read off the code | invariant `Inv` (old objects unchanged, none held or reachable) by induction on the steps; field by field through the assignments of `opf_args2` | `Caller.C117_runpf`, `Caller.C117_runcpf`, `Caller.C117_opf_partial`, `Caller.C117_plain_partial`, `Caller.C117_sticky`, `Caller.C117_next`, `Caller.C117_uopf`, `Caller.C117_negation` | proved for power flows and continuation power flows; for opf proved of every object but the dictionary itself (C117_opf_partial) and, for a case without user data, of the contents of the dictionary up to the columns added (C117_plain_partial); false of the code otherwise: opf_args2 writes into the caller's dictionary, so that constraints given once stay (C117_sticky, C117_next) and uopf leaves the last unit it tried out of service (C117_uopf, C117_negation) |
| C118 | A case saved to a MAT file is the same case when it is loaded | partial | the MAT branch of `savecase` on memory: which keys are written, the tests of their lengths, the values as SciPy converts them; `loadcase` of such a file; the first test of `ext2int` (`Verif/SaveMat`).  SciPy's conversion (numbers and vectors to arrays of one row, dictionaries to arrays of objects) is taken from its documentation | the set of written keys is characterised (`keys_mem`), each variable is followed through the file into the loaded dictionary (`read_file`, `finish_core`) | `SaveMat.C118_case_partial`, `SaveMat.C118_saves`, `SaveMat.C118_vectors`, `SaveMat.C118_lost`, `SaveMat.C118_bounds`, `SaveMat.C118_order`, `SaveMat.C118_fresh`, `SaveMat.C118_sparse`, `SaveMat.C118_caller`, `SaveMat.C118_again`, `SaveMat.C118_negation` | proved for the main tables, areas, costs and the user matrix (C118_case_partial), that plain cases can be saved (C118_saves) and run after loading (C118_fresh), and stability (C118_again); false of the code otherwise: vectors come back as tables of one row (C118_vectors), other keys are lost (C118_lost, C118_bounds), a result cannot be run after loading because its numbering comes back as an array (C118_order, C118_negation), sparse user matrices cannot be saved (C118_sparse), and the version is set in the caller's dictionary (C118_caller) |
| C119 | Cases with reserves, interface limits or DC lines can be printed and saved | partial | the `printpf` and `savecase` callbacks of the three extensions with Python's `%` (as many arguments as conversions, numbers only for `%d` and `%f`), calls of non-functions and attributes of dictionaries as exceptions; the ends of `printpf` and `savecase`, run through the registry model of C46/C47 (`Verif/ExtReport`).  Lines are lists of the values shown; digits and titles are left out; the text written by `savecase` before the callbacks is any string | a callback that raises in all states with the same data makes the whole stage raise (induction over the registered callbacks); the figures are computed by unfolding the loops into `map` and `filter` | `ExtReport.C119_opf_partial`, `ExtReport.C119_dc_partial`, `ExtReport.C119_reserves`, `ExtReport.C119_pf`, `ExtReport.C119_left`, `ExtReport.C119_quiet`, `ExtReport.C119_iflims`, `ExtReport.C119_dc_off`, `ExtReport.C119_dc_mu`, `ExtReport.C119_save`, `ExtReport.C119_save_on`, `ExtReport.C119_save_off`, `ExtReport.C119_negation`, `ExtReport.C119_save_negation` | False of the code: power flows of cases with a registry, even an empty one, interface limits and DC lines out of service raise when printed, and no extension can be saved; proved: when the reports of DC lines and reserves are printed and what they show, and each of these failures for all inputs. |
| C120 | A successful AC optimal power flow respects capability curves, power factors and angle limits of the caller's tables | partial | `opf` with the AC formulation including the blocks `PQh`, `PQl`, `vl`, `ang` built by `makeApq`, `makeAvl`, `makeAang` from the generator and branch tables in internal order, and `update_mupq` after the solution (`Verif/Opf/CurveModel`); the columns of capability data are read from the further columns of the generator rows by given functions | the rows of each block are located in the model (`curve_blocks`), their values at the reported point are those of the returned tables (`CurveRun.pqRow`), normalised rows are turned back into the lines of the curve; unflagged generators follow from their boxes and the slope of the line; the failure is `C64_negation` carried through the renumbering | `Opf.C120_capability`, `Opf.C120_limits`, `Opf.C120_angles`, `Opf.C120_powerfactor_partial`, `Opf.C120_negation_powerfactor`, `Opf.C120_negation`, `Opf.C120_completes_partial` | False of the code: when only upper (or only lower) corners are cut off by capability curves a converged run raises, and a dispatchable load with two nonzero reactive limits is forced to zero reactive power instead of being rejected; proved: capability lines, power factors and angle limits hold in the returned tables of every successful run, when runs return, and both failures for all inputs. |
| C121 | Prices of an AC optimal power flow with capability curves support its result | proved | the model of C120; `update_mupq` is that of C64 (`Verif/Opf/CurvePrice`, `Verif/Opf/CurvePriceProps`) | stationarity of the reported point (C80) contains one term for every further linear row; the coefficients of a generator's outputs in the blocks `PQh`, `PQl` are those in the identity of C64, so the terms of these blocks are exactly what the translation adds to `MU_PMAX`, …; rows of angle limits have no coefficient on outputs; the row of a dispatchable load has none along its power factor direction; at most one row of each block touches an output and coefficients are normalised, which bounds the dropped multipliers | `Opf.C121_prices`, `Opf.C121_multipliers` | for cases whose costs are all those of the table (no user variables, constraints or costs, no piecewise linear costs) |
| C122 | The commands pf and opf do what their arguments say | partial | `main.py` (both commands, option tables of ppoption.py, the part of optparse they use: long and short options, values attached or in the next word, abbreviations, `--`) as a parser over lists of characters; numerals are a parameter | Induction over the list of items for the meaning of valid command lines (table lookups by `decide` on the literal option tables), invariant of the parser over arbitrary words for types and untouched options, analysis of all ways to stop for the exit codes | `Cli.C122_options_partial`, `Cli.C122_tests`, `Cli.C122_usage`, `Cli.C122_text`, `Cli.C122_safe`, `Cli.C122_never`, `Cli.C122_exit` | false of the code for options with a text default (C122_text); everything else is proved |
| C123 | Unit decommitment returns a feasible schedule of the caller's system, no dearer than with all units on | proved | `uopf` on the tables of a case with any optimal power flow put in, in particular those of C86 and C96 (`Verif/UnitOpf`): the case handed to each trial has the bus and generator tables of the best result so far and everything else from the caller | the inputs of the tables handed from stage to stage are those of the caller with the units in `off` at status zero (`Committed`, induction over the stages); such a case is well-formed and in range, so C86 and C96 apply to the last optimal power flow; the number of units shut down grows with each stage and is bounded by that of the generators | `UnitOpf.C123_refused`, `UnitOpf.C123_returned`, `UnitOpf.C123_objective`, `UnitOpf.C123_success`, `UnitOpf.C123_ends`, `UnitOpf.C123_dc_returns`, `UnitOpf.C123_dc`, `UnitOpf.C123_dc_cost`, `UnitOpf.C123_dc_all_on`, `UnitOpf.C123_ac` | — |
| C124 | The quadratic programme solver solves the problem it is given, in every documented form | partial | `qps_pips` and `qps_pypower` with PIPS (`Verif/Qps`): dictionaries with keys missing or `None`, default values, options, what is written into the caller's dictionary; `pips` itself from `Verif/Pips` | the data handed to `pips` are those of the posed problem, so C76 and C82 apply (a symmetric matrix with nonnegative form lies above its tangents); case analysis for the accepted forms; an explicit problem on which every tolerance is met at the start for the negation | `Qps.C124_optimal_partial`, `Qps.C124_multipliers`, `Qps.C124_accepted`, `Qps.C124_bounds_only`, `Qps.C124_same`, `Qps.C124_again`, `Qps.C124_asymmetric`, `Qps.C124_pypower_partial`, `Qps.C124_options_ignored`, `Qps.C124_max_it`, `Qps.C124_bounds_only_pypower` | false of the code for H that is not symmetric, linear programmes with bounds only, options with a dictionary without H, and max_it zero (each proved); everything else is proved |
| C125 | Optimal power flows do not depend on the operating point stored in the case | proved | the starting points of `dcopf_solver` and `pipsopf_solver`, the options both read, `rundcopf`/`runopf` on tables with these (`Verif/Opf/Start*`); other solvers and a missing reference bus as `none` | the initial values in the model are the only place where the operating point enters, and both solvers replace them by the interior point: congruence through `ext2int`, the model (equal but for `v0`), the solvers, and `int2ext` (rows out of service by the placement lemmas); kept inputs of C86 for running again | `Opf.C125_dc`, `Opf.C125_dc_raises`, `Opf.C125_ac`, `Opf.C125_ac_raises`, `Opf.C125_restate`, `Opf.C125_dc_again`, `Opf.C125_ac_again`, `Opf.C125_interior`, `Opf.C125_violation`, `Opf.C125_no_effect`, `Opf.C125_no_reference`, `Opf.C125_completes`, `Opf.C125_succeeds`, `Opf.C125_tolerance`, `Opf.C125_least_cost` | PIPS is deterministic in the model (its linear solver is a function); the other solvers are not modelled |
| C126 | User-defined constraints and variables hold after an AC optimal power flow | partial | `opf_setup` with `A`, `l`, `u`, `z0`, `zl`, `zu` in the AC formulation, the slices of `opf_execute`, the conversion of a sparse or dense `A`, from tables to tables (`Verif/Opf/AcUser*`); user costs are part of the arbitrary objective | blocks "z" and "usr" located in the model object for any further blocks, bounds and complementarity of their rows from the solver theorems (C76, C79), values read off the tables through the row bridge; runs exist for well-shaped data | `Opf.C126_tables`, `Opf.C126_dense`, `Opf.C126_applied`, `Opf.C126_partial`, `Opf.C126_multipliers`, `Opf.C126_multipliers_partial`, `Opf.C126_completes`, `Opf.C126_accepts`, `Opf.C126_negation` | proved for the rows the code applies the columns to; for the caller's rows only when everything is in service and generators are in bus order, the code ignores this for sparse matrices; user costs are not modelled |
| C127 | The AC optimal power flow cuts off no operating point | proved | the whole AC formulation of C120 and C126 from tables to tables; the operating points are described on the caller's tables alone (`Verif/Opf/AcFeasSpec.lean`) | uniqueness of the currents of the standard branch model turns the tables into an exact zero of the mismatch callback; every block of rows (curves after normalisation, power factors, angles, user) holds there; a feasible starting point is accepted by the interior-point loop before its first step (acceptance lemma of C96) | `Opf.C127_accepts`, `Opf.C126_accepts` | costs of active power without helper variables; cut-off corners of both kinds or none (otherwise no run returns, C120); a load with two nonzero reactive limits is taken at zero reactive power, as the code does |
| C128 | Bus prices and shadow prices are marginal costs | proved | `dcopf_solver`, `opf_setup` and the multipliers of PIPS from tables to tables, as in C96; the changed system is described on the caller's tables (`Verif/Opf/SensSpec.lean`) | the Lagrangian inequality of a successful iterate at a point that violates the bounds by given amounts (`C128_solver`), the rows of balance, flows and output limits located in the model object (`C128_dc`), then through the row bridge to the tables | `Opf.C128_prices`, `Opf.C128_dc`, `Pips.C128_solver` | DC formulation without user constraints, variables and costs; shadow prices below 1e-5 (scaled, p.u.) are reported as zero by the code, hence the second error term |
| C129 | The prices of a DC optimal power flow collect at least what they pay | proved | as C96; surplus, rents and their error terms are defined on the returned tables alone (`Verif/Opf/RentSpec.lean`) | the stationarity of the angles (C99) summed with the returned angles as weights, the balance of the tables (C86) with the prices as weights, exchange of sums over buses and branches, complementarity (C98) | `Opf.C129_identity`, `Opf.C129_rents`, `Opf.C129_no_loss` | without user constraints, variables and costs; several references must share one returned angle |
| C130 | Running a power flow again on its own results changes nothing | proved | `runpf` from tables to tables as in C87/C88 (`runpfAc`, `runpfDc`), applied to its own result | the result is well-formed with the same numbering and statuses, its internal form is the internal form of the first run with the solution written in (`again_internal`), the stored starting point is the final voltage (polar form), the first mismatch is the last one, and every cell written the second time is the one written before (`runAC_again`, `dc_again`) | `Runpf.C130_ac`, `Runpf.C130_dc` | exact arithmetic; with ENFORCE_Q_LIMS a run with a violation raises (C70), the others are covered; AC: positive set points and no generator in service at a bus declared PQ, both are needed by the code |
| C131 | Bus numbers are only names | proved | `ext2int`, `int2ext` and the runs of C87, C96, C120, C125 from tables to tables; the renaming is described on the tables (`Verif/Index/NameSpec.lean`) | the internal tables of the two cases are equal and only the saved order differs (`Renamed.internal`, by the closed form of `ext2int` and injectivity), every later step reads the internal tables only, `int2ext` commutes with the renaming (`int2ext_ren`) | `Runpf.C131_pf_ac`, `Runpf.C131_pf_dc`, `Opf.C131_opf_ac`, `Opf.C131_opf_dc` | rows keep their order; costs and further constraints of the AC problem are any function of the data in internal numbering; callbacks that keep their own bus numbers are not covered |
| C132 | The order of the rows does not matter to a DC power flow | proved | `runpf` with `PF_DC` from tables to tables as in C87; reordering is `List.Perm` of the tables (`Verif/Runpf/OrderSpec.lean`) | a run is turned into equations on the tables by bus number (`dc_sol`: angles, flows, balance, generation), which do not mention the order; the equations have one solution (`net_unique`: the energy of the difference of two solutions is a sum of squares that vanishes, so angles agree along branches from the slack bus); `C132_needs_ref` is a pair of PV buses without loads | `Runpf.C132_dc`, `Runpf.C132_needs_ref` | branches in service with positive reactance, every connected bus joined to a REF bus with a generator in service; individual generator rows where no bus has two generators in service (otherwise the first one in the table takes the change); without a REF bus the order matters (C132_needs_ref) |
| C133 | DC power flows superpose | proved | as C132; the combination of injections is described on the tables (`Verif/Runpf/LinearSpec.lean`) | the run as equations on the tables (`dc_sol`) is linear in injections and slack angles (`Mixed.net`, `Mixed.genOn`), and its solution is unique (`net_unique`) | `Runpf.C133_dc` | branches in service with positive reactance, every connected bus joined to a slack bus; weights sum to 1 unless no phase shifter is in service |
| C134 | Only net injections matter to a DC power flow | proved | as C132; equality of injections is described on the tables (`Verif/Runpf/InjectSpec.lean`) | the run as equations on the tables (`dc_sol`) mentions generators only through the net injection of a bus; uniqueness (`net_unique`) | `Runpf.C134_dc` | branches in service with positive reactance, every connected bus joined to a slack bus |
| C135 | Equipment out of service might as well not be in the tables | proved | `ext2int`, `int2ext`, `runpf` and `opf` from tables to tables as in C01-C04, C87 and C125; the deletion is a filter of the tables (`Verif/Index/StripSpec.lean`) | closed form of the conversion: removing rows out of service is idempotent, so the internal tables of both cases are the same (`Stripped.internal`, cost rows `Stripped.gencost`) and every run on them is the same; writing the results back into the full tables and filtering gives the tables of the short case (`filter_of_get`, `results_strip`) | `Runpf.C135_pf_ac`, `Runpf.C135_pf_dc`, `Opf.C135_opf_ac`, `Opf.C135_opf_dc` | optimal power flows without user matrices A and N (their columns refer to all rows, C109); areas are not compared |
| C136 | The direction in which a branch is entered is only a naming of its ends | proved | `makeYbus`, `makeB`, `makeBdc`, the four algorithms, `pfsoln`, `dcpf` and `runpf` from tables to tables as in C10-C16, C87; turning is a relation between rows (`Verif/Runpf/TurnSpec.lean`) | the four admittances of a turned branch are those of the branch with the ends exchanged (`Turn.Yff` etc.), so `Ybus`, `Bbus` and `Pbusinj` are the same sums; the run does the same on both and only the flows are formed from other rows (`runAC_with`); written back at the same positions (`Turned.results`) | `Runpf.C136_ac`, `Runpf.C136_dc` | fast decoupled methods: branches turned have ratio 1, as the property says |
| C137 | The MVA base is only a unit | proved | `makeYbus`, `makeSbus`, `makeB`, `makeBdc`, `newtonpf`, `fdpf`, `gausspf`, `pfsoln`, `dcpf` and `runpf` from tables to tables as in C10-C16, C87; the conversion is a map of the branch rows (`Verif/Runpf/ScaleSpec.lean`) | all admittances, injections, mismatches and Jacobians are those of the other base divided by k, so every solver takes the same steps (`newtonpf_scale`, `fdpf_scale`, `gausspf_scale`; Gauss-Seidel by a simulation, since it rewrites the injections) and the factor cancels in `pfsoln` (`runAC_rebase`); rows written back at the same positions (`rebase_results`) | `Runpf.C137_ac`, `Runpf.C137_dc` | the number of iterations is an internal step of the proof (newtonpf_scale, fdpf_scale, gausspf_scale: equal results including the count); runpf does not return it |
| C138 | Only differences of voltage angles matter | proved | `newtonpf`, `fdpf`, `gausspf`, `pfsoln`, `dcpf` and `runpf` from tables to tables as in C10-C16, C87; the change of reference is a map of the bus rows (`Verif/Runpf/SpinSpec.lean`) | injections, mismatches, Jacobians and flows do not change when all voltages are multiplied by a number of modulus 1, so the solvers step through turned voltages (`newtonpf_spin`, `gausspf_spin`; `fdpf_spin` by a relation between the states, since it keeps angles and magnitudes apart); the angles reported differ by the shift up to whole turns (`arg_turn`); DC: rows of `Bbus` sum to zero, so the shifted angles solve the shifted equations, which have one solution (`dcpf_shift`) | `Runpf.C138_ac`, `Runpf.C138_dc` | AC: every algorithm and every outcome (raising, NaN tables, no convergence, convergence); the angle of a bus with zero voltage is not determined and excluded; the linear solver is assumed to give up on a square system in which an unknown does not occur. DC: islands tied to slack buses by inductive branches (otherwise the equations are singular) |
| C139 | Stored results that are not the start of an AC power flow do not matter | proved | `runpf` (AC) from tables to tables, the three solvers and `pfsoln` as in C10-C16, C87; the two cases are related row by row (`Verif/Runpf/GuessSpec.lean`) | the start is VG with the stored angle whatever the positive stored magnitude (`runAC_guess`); the solvers read the active injections of PV buses and the injections of PQ buses only (`SameInj`; Gauss-Seidel by a simulation, since it writes reactive injections of PV buses before using them); `newPG` overwrites the output of a lone slack generator (`newPG_congr`); rows written back at the same positions (`same_results`) | `Runpf.C139_unused_guesses` | every algorithm and every outcome (raising, NaN tables, no convergence, convergence); a stored magnitude that is zero or negative does matter to the code and is excluded; the DC power flow is the subject of C134 |
| C140 | AC power flows depend on net injections only | proved | `runpf` (AC) from tables to tables, `makeSbus`, the three solvers and `pfsoln` as in C10-C16, C87; the two cases are related row by row and by sums over the generators in service at a bus (`Verif/Runpf/LoadSpec.lean`) | the two internal cases differ in loads and outputs only (`read_net`); their injections agree where the solvers read them (`genOnSum`, `SameInj`), so that all solvers step alike (`pick_same`); whether `newPG` raises does not depend on loads and outputs (`newPG_netted`); voltages and flows are functions of the solution (`runAC_netted`); rows written back at the same positions (`same_net_results`) | `Runpf.C140_net_injections` | every algorithm and every outcome; reactive limits not enforced, since enforcing them looks at outputs, which do differ; the DC power flow is the subject of C134 |
| C141 | Power flows ignore limits, ratings, prices, costs and user constraints | proved | `runpf` (AC and DC) from tables to tables with `ext2int`, `int2ext` as in C87; the two cases have the same rows but for the listed columns (`Verif/Runpf/LimitSpec.lean`) | renumbering, sorting and removal depend on bus numbers, types and status only (`SameFlowData.internal`); the driver reads the same data from both internal cases (`read_limits`), so the solvers and `pfsoln` are run on equal arguments; rows written back at the same positions keep the other columns (`same_limit_results`) | `Runpf.C141_ac`, `Runpf.C141_dc` | both cases well-formed, so costs and user matrices have enough rows and columns to be converted (otherwise the conversion raises, C109); limits of reactive power do matter to AC power flows and are not among the columns |
| C142 | The status of a generator is only on or off | proved | `runpf` (AC and DC) from tables to tables with `ext2int`, `bustypes`, `makeSbus`, `pfsoln` and `int2ext` as in C10-C16, C87; the two cases have the same rows but for the numbers (`Verif/Runpf/OnOffSpec.lean`) | removal, sorting and bus types depend on the sign only (`SameOnOff.internal`, `bustypes_onOff`); so do all sums and lists of generators in the solution (`restat_onList`, `restat_atBus`, `restat_sbus`, `restat_newPG`, `restat_newQG`), hence the runs on the two internal cases are equal (`restat_run`, `restat_dcPG`) | `Runpf.C142_ac`, `Runpf.C142_dc` | generators only: the status of a branch enters the admittances as a factor in the code (makeYbus.py:44, makeBdc.py:51) and is read bitwise by ext2int.py:123, so for branches only 0 and 1 are meaningful |
| C143 | A bus without a generator in service is a PQ bus, whatever its declared type | proved | `runpf` (AC and DC) from tables to tables with `ext2int`, `bustypes` and `int2ext` as in C10, C87; the two cases are related row by row (`Verif/Runpf/TypeSpec.lean`) | renumbering, sorting and removal depend on whether a bus is isolated only (`AnyTypes.internal`); generators in service at a bus are the same in internal numbering, so that `bustypes` returns the same lists (`types_internal`, `bustypes_types`); the driver then reads the same data (`read_types`) and writes the same results back at the same positions (`same_type_results`) | `Runpf.C143_ac`, `Runpf.C143_dc` | power flows only: an optimal power flow fixes the angle of every bus declared REF, with or without generators (opf_setup.py) |

## 4. Modelled code

Lines of `/repo/pypower` cited by the models (collected from the comments on the definitions):

* `add_userfcn.py`: 83-113
* `bustypes.py`: 16-50
* `case9.py`: 42-46
* `cpf_callbacks.py`: 50, 64-70, 87-91
* `cpf_corrector.py`: 15-137
* `cpf_p.py`: 7-36
* `cpf_p_jac.py`: 7-36
* `cpf_predictor.py`: 13-62
* `d2AIbr_dV2.py`: 35-46
* `d2ASbr_dV2.py`: 39-46
* `d2Ibr_dV2.py`: 31-40
* `d2Sbr_dV2.py`: 31-51
* `d2Sbus_dV2.py`: 31-48
* `dAbr_dV.py`: 58-74
* `dIbr_dV.py`: 38-62
* `dSbr_dV.py`: 62-131
* `dSbus_dV.py`: 53-71
* `dcopf_solver.py`: 91-282
* `dcpf.py`: 28-36
* `e2i_data.py`: 66-94
* `e2i_field.py`: 15-64
* `ext2int.py`: 12, 56-213, 218-241
* `fairmax.py`: 12-30
* `fdpf.py`: 16-142
* `gausspf.py`: 15-116
* `get_reorder.py`: 20-31
* `hasPQcap.py`: 15-63
* `i2e_data.py`: 69-90
* `i2e_field.py`: 8-57
* `int2ext.py`: 43-123, 128-144
* `ipoptopf_solver.py`: 64-449
* `isload.py`: 10-24
* `loadcase.py`: 27-261
* `main.py`: 26-73, 91-194
* `makeAang.py`: 16-60
* `makeApq.py`: 17-96
* `makeAvl.py`: 19-84
* `makeAy.py`: 15-99
* `makeB.py`: 31-46
* `makeBdc.py`: 52-56, 63, 67-75
* `makeLODF.py`: 28-39
* `makePTDF.py`: 36-77
* `makeSbus.py`: 25-39
* `makeYbus.py`: 45-55, 63, 69-71, 77-78, 83-84
* `modcost.py`: 15-89
* `newtonpf.py`: 19-134
* `opf.py`: 148-196
* `opf_args.py`: 25-364
* `opf_consfcn.py`: 59-85, 89-94, 98-178
* `opf_costfcn.py`: 40-117, 142-167
* `opf_execute.py`: 43, 60-140, 146-199
* `opf_hessfcn.py`: 60-236
* `opf_model.py`: 28-107, 197-602, 652-757
* `opf_setup.py`: 53-61, 65, 70-132, 140-153, 163-173, 180, 184-198, 212-216, 221-275
* `pfsoln.py`: 33-97
* `pips.py`: 19-643
* `pipsopf_solver.py`: 69-88, 92-209
* `poly2pwl.py`: 15-48
* `polycost.py`: 15-67
* `ppoption.py`: 8-176, 192-223
* `pqcost.py`: 13-37
* `printpf.py`: 93-130, 138-173, 187-236, 245-263, 273-280, 290-302, 316-329, 335-389, 399-427, 455-485, 489-497, 502-515, 597-599, 623, 641-651, 655-658, 685-689
* `qps_pips.py`: 114-175
* `qps_pypower.py`: 45-57, 118-207
* `remove_userfcn.py`: 19-28
* `run_userfcn.py`: 24-47
* `runcpf.py`: 64-307
* `rundcopf.py`: 22-26
* `runopf.py`: 26-52
* `runopf_w_res.py`: 64-70
* `runpf.py`: 75-322
* `savecase.py`: 32-382, 386
* `scale_load.py`: 21-189
* `set_reorder.py`: 21-30
* `toggle_dcline.py`: 53-234, 238-277, 281-338, 342-458
* `toggle_iflims.py`: 54-298
* `toggle_reserves.py`: 57-59, 66-410
* `total_load.py`: 25-130
* `totcost.py`: 15-53
* `uopf.py`: 25-130
* `update_mupq.py`: 11-50
* `util.py`: 9-17

Not modelled at all: `__init__.py`, `_compat.py`, `api.py`, `cplex_options.py`, `dcopf.py`, `gurobi_options.py`, `ipopt_options.py`, `mosek_options.py`, `pipsver.py`, `pplinsolve.py`, `ppver.py`, `qps_cplex.py`, `qps_gurobi.py`, `qps_ipopt.py`, `qps_mosek.py`, `rundcpf.py`, `runduopf.py`, `runuopf.py`, the `case*.py` data files and the test harness `t/`. `idx_*.py` are used as the column names of the records.

## 5. Disagreements between the code and its documentation found while modelling

Each is proved as a theorem on the model (named in section 3) or, where marked (read), only read off the text.

* C07: `e2i_data` on a sparse matrix with a list of orderings returns its input unchanged.
* C08: `int2ext1`-style renumbering of a nonempty areas table raises.
* C09: a reference to a missing bus number below the largest one is silently attached to another bus.
* C13: `modcost('SCALE_X')` with a negative factor reverses the breakpoints of a piecewise linear row.
* C15: `poly2pwl` raises for every nonempty table.
* C16: `makeAy` attaches reactive cost rows to the wrong generator column.
* C18: the DC OPF objective is wrong with user offsets `rhat`, and for polynomial rows of NCOST other than 2 or 3.
* C19: `opf_costfcn` drops all polynomial costs when row 0 is the only polynomial row.
* C20/C21: dispatchable load masks are negated as booleans, which raises on newer scipy; `scale_load` raises for the default
  single zone, truncates factors of integer targets, and writes into the caller's option dictionary (read).
* C28: with EPS > 0 the reactive shares do not add up to the total exactly.
* C33: any reactive limit violation makes the enforcement loop of `runpf` raise.
* C37: `elif 700:` in `qps_pypower` accepts every solver code; codes 100 and 300 do not reach their solvers.
* C39: a duplicate set name in `opf_model` prints a message and moves the existing block.
* C42: constraints on the default variable set raise on assembly once later variable sets are added.
* C43: `dd`, `rh`, `kk`, `mm` of a cost block are stored under the literal key `"name"` and lost.
* C44: `get_cost_params` by name fails.
* C49: `loadcase` of version 1 tables with solution columns drops/keeps the wrong columns; a declared version is ignored.
* C50: `savecase` raises for branch tables of 19 or 20 columns and cost tables with spare columns; `z0`/`zl`/`zu`/`l`/`u` printing
  raises (read).
* C51: the up-front decommitment of `uopf` raises.
* C53: ambiguous power factor limits are reported but not rejected (Q forced to 0).
* C54: PC1 > PC2 silently reverses the half-plane (C54_reversed).
* C55: an interface containing the first in-service branch loses it; unsorted limits are matched to the wrong interface; the external
  map is overwritten; float maps raise (read); the print callback is broken (read).
* C56: float bus indices raise on numpy ≥ 1.12; DC line costs raise; PMIN = 0 forces a flow of at least 1e-6; OPF results with an
  outage raise; a missing gencost raises KeyError in int2ext (read); negative limits are enforced at the to end (read).
* C57: the reported reserve price is the sum over zones, not the documented maximum.
* C62: the λ derivative of the arc length parameterisation at an unmoved point is reported 1, true value 0.
* C63: the corrected point can overshoot the target; identical base and target cases raise; a failed base power flow goes unnoticed (read);
  after a failure `iterations` is the Newton count (read).
* C64: `update_mupq` raises when only one kind of sloped capability constraint is present.
* C67: reporting the values of two or more user cost blocks after an OPF raises.
* C71: `runpf` leaves a branch table of exactly 16 columns one column short.
* C75: `opf_hessfcn` calls Python's built-in `any` on the two-dimensional table of reactive costs, which raises: AC OPF with reactive cost
  rows cannot evaluate its Hessian (`C75_negation_qcost`).  Without a constrained branch it raises too (`C75_negation_unconstrained`).
* C74: the Jacobian has a column entry -1 also for out-of-service generators, which the constraint itself ignores (`C74_negation_offline`);
  harmless after `ext2int`, which removes them.
* C81: hence an AC OPF on a case without any branch limit, or with reactive cost rows, always raises (`C81_negation`).
* `OPF_ALG_DC = 0` is documented as CPLEX, then Gurobi, then PIPS; the code tries MOSEK before Gurobi (C37_auto_negation);
* `printpf` zeroes reactive demands, shunt susceptances, reactive limits, resistances and charging in the *caller's results* for DC calculations (printpf.py:138-141), so `runpf`/`runopf`
  with `PF_DC` return changed input columns (C93_negation; C86/C87 speak of the tables before printing).
* `printpf` drops the first area from the area summary and lists the second twice if the first has a single bus, and raises on a one-bus case (printpf.py:152-154, C92_negation).
* `printpf` never prints the voltage constraint section with its default option 1 because `==` binds less tightly than `&` and `|` (printpf.py:457-461, C94_negation).
* `printpf` raises TypeError when a dispatchable load is at a limit (`%` with an array, printpf.py:597, 599, 630, 632; `gen(i, GEN_BUS)`, printpf.py:623), so `runopf` loses the results
  (C95_negation, C95_runopf_negation).
* `printpf` counts the charging of tie lines twice in the reactive balance of an area (C91_area_reactive_negation), includes the demand of isolated buses in totals
  (C91_isolated_negation), and shows shunts after a DC OPF at stale voltages (C91_dc_shunt_negation).
* `opf` writes `MU_ANGMIN`/`MU_ANGMAX` only for the branches that have an angle limit (opf_execute.py:136-140); the others keep the values of the input, so a stale
  shadow price is returned for a branch without a limit (C98_stale, C98_negation).
* `opf` called with the name of a case file drops all fields it does not interpret (`ppc = {}`, opf_args.py:337), such as those of user functions; called with the
  case itself it keeps them, and it writes into the caller's dictionary (C100_file_negation).  Linear constraints given as empty do not replace those of the case
  (C100_empty_negation).
* In `e2i_field` and `i2e_field` the descent `v_ext = v_ext[fld]` is inside the `if fld not in v_ext` (e2i_field.py:57-59): a field nested three deep raises KeyError once
  something was saved under its first key (C101_deep_negation), and a second field of the same dictionary leaves an empty entry under its own name
  (C101_spurious_negation).
* C102: `runcpf` with the same loading in both cases prints that it stops at the base case and raises (`C102_identical`); branch flows are computed from the base network and
  written into the target rows by position, so that a target with other branches or branch parameters gets flows of the wrong network (read from `cpfOut`).
* `ipoptopf_solver` fixes the positions of the Hessian from the cost Hessian at the starting point (tril of `d2f`): a generator whose cost has no curvature there, e.g. a cubic with its
  inflection point in the middle of the limits, is presented to IPOPT as if its cost were linear everywhere (C104_negation_curvature).  Without a limited branch `eval_g`, `eval_jac_g` and `eval_h` raise (C104_negation_unlimited, C104_negation_raises).
  (read) `opf_costfcn` takes the reactive cost rows from `gencost[ng + 1:2 * ng]`, one row late, and guards the user cost Hessian by `issparse(N)` alone, so that an empty `N` uses variables never assigned.
* `runopf_w_res` when no generator in service belongs to a zone: `results['var']['val']` has no entry `R` (opf_execute.py:151 stores only non-empty blocks), and the `int2ext`
  callback raises `KeyError` (toggle_reserves.py:245) after the problem has been solved (`C106_none`).
* The documentation of `runopf_w_res` says that `prc` is the *maximum* of the shadow prices of the zones of a generator; the code takes the sum, which is what the equilibrium
  needs (`C107_prc`, `C107_equilibrium`).
* C109/C110: `ext2int` drops the reordered user matrices (C07), so with sparse `A` or `N` column *j* acts on the *j*-th internal variable: with two generators listed against the order of
  their buses a limit of 20 MW on the first generator is applied to the second, and the run ends more than 4000 $/h above a feasible dispatch (`C109_negation`, `C110_negation`).
  Dense matrices raise `AttributeError` (`C109_dense`); user costs without `H` raise (`C109_noH`).
* C111: `get_cost_params(name)` cuts the stored parameters down to the named block (C44), so with two non-empty cost sets (user costs and reserve costs, say) `opf_execute`
  raises `IndexError` after a successful solve (`C111_negation`). `alg == 100 | alg == 200` is `alg == (100 | alg) == 200`, never true: deprecated codes are not translated, and unknown
  codes end in an `UnboundLocalError` instead of the message (`C111_algorithm`).
* C112: `toggle_iflims` deletes the rows of the map whose *internal* branch index is 0, so the first branch in service never counts (`C112_first_ignored`: any flow on it passes any limit and
  is reported as zero), and pairs the k-th smallest interface number with row k of the limits (`C112_order_ignored`).
* C113: a table written with whole numbers is an integer array and assignments drop fractions.  `runpf` does not convert `gen`, so with the shipped `case9` (the default case) and `case9Q` the
  returned `PG` of the slack generator and all `QG` are whole numbers and the tables do not balance (`C113_negation`).  `opf` converts by appending float columns.
* C114: `opf_setup` stores slope and intercept of one-segment costs in `gencost` itself; with a table of whole numbers they lose their fractions, a cost of 0.5 $/MWh
  becomes 0 and a successful run reports the objective 0 (`C114_negation`).
* C115: `savecase` prints `inf`/`nan` bare, which the generated file does not import: a case with an unlimited `Qmax` is saved and cannot be loaded (`C115_infinite`);
  the line for `zl` is indented further than the others (`C115_zl`); user matrices `A`, `N`, sparse or dense, raise (`C115_user`); a file named like a local variable of
  `loadcase` (`s.py`, `a.py`, `d.py`, ...) is never loaded (`C115_name`); a table of whole values comes back as an integer array (`C115_integer`, with the effects of C113);
  branch tables of 19 or 20 columns raise; `%d` truncates.
* C116: of the documented exit codes of `loadcase` 1 is never returned, because the line that prints `lasterr` raises `UnboundLocalError` (`C116_argument`); a case file with a syntax error or
  without one of the tables raises instead of code 5 (`C116_syntax`, `C116_missing`); none of the callers looks at the code, so a power flow of a misspelt name ends in a
  `TypeError` (`C116_run`); the declared version of a case and empty areas are not looked at (`hasattr` of a dictionary);
* C117: `opf_args2` assigns into the dictionary the caller passed (opf_args.py:337): after `opf(ppc, A, l, u)` the constraints are in `ppc`, and `opf(ppc)` solves the constrained problem
  (`C117_sticky`, `C117_next`); `uopf(ppc)` searches in the caller's tables and leaves the last unit it tried out of service there, also if the returned solution runs it (`C117_uopf`);
* C118: a result saved to a MAT file cannot be run when it is loaded: `array(ppc["order"])` becomes a cell array, and `ext2int` raises on `ppc["order"]["state"]` (`C118_order`); user bounds
  come back as tables of one row (`C118_vectors`), bounds without a matrix and all keys that are not listed are dropped (`C118_bounds`, `C118_lost`), a sparse `A` raises `TypeError` in
  `len` (`C118_sparse`), and `savecase` sets the version of the caller's case (`C118_caller`);
* C119: `printpf.py:688` calls `ppoption(ppopt, 'OUT_ALL_LIM', 0)`, which takes one positional argument: printing any power flow with a `userfcn` key raises, also after an extension was
  switched on and off again (`C119_pf`, `C119_left`); `userfcn_iflims_printpf` calls the table `iflims(k, 1)` (`C119_iflims`); `userfcn_dcline_printpf` formats eight conversions with
  seven arguments for a line out of service (`C119_dc_off`) and reads multiplier columns that may be missing (`C119_dc_mu`); all three `savecase` callbacks raise (`C119_save`);
* (C120) `update_mupq` indexes the coefficient columns of both kinds of capability rows, so an AC optimal power flow of a case in which only upper or only lower corners are cut off
  raises after converging (`C120_negation`); a dispatchable load with two nonzero reactive limits is reported on `stderr` and solved at unity power factor (`C120_negation_powerfactor`);
* C122: the commands cannot set options whose default is a text (`--pf_lin_solver_nr=pyrlu` raises: `option.choices` is `None`, and `_` is undefined); `--pdipm_feastol` only takes
  integers because its default is the integer 0; `opf` offers no power flow options, so it can never run a DC OPF although `--opf_alg_dc` is offered; `-u -r` prints that they
  exclude each other and runs `runuopf`.
* `uopf` compares the objective of trials with that of the plain optimal power flow even if the latter has failed (uopf.py:79-111): a successful decommitment whose
  objective is not below that of the failed run is passed over and the failed result is returned (C123_success).
* `qps_pips` uses `H x + c` as gradient of `1/2 x'Hx + c'x`, which is wrong unless `H` is symmetric (qps_pips.py:163-169): success is reported at points that are not
  minima (`C124_asymmetric`); a linear programme with bounds and no rows is refused although the message asks for constraints *or* bounds (`C124_bounds_only`, precedence
  of `or` and `and`, qps_pips.py:125-128); `qps_pypower` drops the options for PIPS for dictionaries without `H` (`C124_options_ignored`) and takes `max_it` zero, documented
  as the default, literally (`C124_max_it`).
* (C126) the same in the AC problem: with sparse `A` and generators listed against the order of their buses, a limit of 60 MW on the first generator lets it return 90 MW
  (`C126_negation`); dense matrices raise (`C126_dense`).
* (read) `pips` documents `None` on numerical failure but returns `False`; `gausspf` mutates its argument `Sbus` (C31_Sbus proves it);
  `fdpf` raises without PQ buses (C32_raises), `newtonpf` with neither PV nor PQ buses (C30_raises); `opf_hessfcn` and `dSbr_dV` raise when
  no branch is constrained; `add_userfcn`'s `allow_multiple` has no effect; toggling reserves or interface limits on a case without the
  fields raises KeyError; the negative-loss message of `toggle_dcline` raises.
