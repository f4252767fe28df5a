{"id": "C01", "title": "External/internal conversion round trip", "statement": "For a case whose bus numbers are distinct and whose generators, branches and areas refer only to existing buses, converting to internal numbering and straight back returns exactly the bus, branch, gen, areas and gencost tables that were supplied, row for row and in the original order, including the out-of-service rows.", "quantifier": "every case table of any size, any bus numbering, any mix of in/out-of-service equipment, any tie-breaking permutation chosen by the sort of generators", "why_tests_cant": "unit tests round-trip one or two sample cases; the claim ranges over all numberings, all status patterns and all generator orders", "anchors": ["pypower/ext2int.py:ext2int", "pypower/int2ext.py:int2ext"]}
{"id": "C02", "title": "Internal numbering is consecutive and consistent", "statement": "After conversion to internal numbering the buses are numbered 0,1,...,nb-1 in table order, every generator, branch end and area refers to the position of the very bus it was attached to before, and generators appear in non-decreasing bus order.", "quantifier": "every case with distinct bus numbers, any size", "why_tests_cant": "tests look at specific cases; correctness of every reference for every numbering is a universally quantified statement", "anchors": ["pypower/ext2int.py:ext2int"]}
{"id": "C03", "title": "Exactly the in-service equipment is kept", "statement": "A bus survives conversion iff its type is not NONE; a generator survives iff its status is positive and its bus survives; a branch survives iff its status bit is set and both its ends survive; an area survives iff its reference bus survives. The recorded on/off index lists partition the external rows.", "quantifier": "every case table; every status/type combination", "why_tests_cant": "the number of status combinations is exponential in system size", "anchors": ["pypower/ext2int.py:ext2int"]}
{"id": "C04", "title": "Results land on the right external rows", "statement": "If the solver overwrites the internal bus/gen/branch rows (keeping the internal numbering columns), converting back puts each overwritten row at the external position it came from with its original bus numbers, and leaves every out-of-service row exactly as supplied.", "quantifier": "every case, every assignment of new values to internal rows", "why_tests_cant": "tests compare a few solved cases; here the new values are arbitrary", "anchors": ["pypower/int2ext.py:int2ext", "pypower/ext2int.py:ext2int"]}
{"id": "C05", "title": "Conversions are idempotent and safe in any order", "statement": "Converting an already-internal case to internal is a no-op, converting an already-external case to external leaves the data unchanged, and after any sequence of the two conversions the case is either the original external case or the internal case, nothing else.", "quantifier": "every finite sequence of ext2int / int2ext calls starting from any well-formed external case", "why_tests_cant": "call histories are unbounded", "anchors": ["pypower/ext2int.py:ext2int", "pypower/int2ext.py:int2ext"]}
{"id": "C06", "title": "Reordering user data between numberings", "statement": "Data indexed by bus, gen or branch converted to internal order and then back (with the original as the fill value) is unchanged; each internal entry equals the external entry of the equipment it belongs to; entries of out-of-service equipment keep the fill value. For a list of orderings the blocks are converted one after another and any trailing data is carried through.", "quantifier": "every data vector/matrix, every ordering list, every pattern of in/out-of-service equipment", "why_tests_cant": "arbitrary data and arbitrary block lists", "anchors": ["pypower/e2i_data.py:e2i_data", "pypower/i2e_data.py:i2e_data", "pypower/get_reorder.py:get_reorder", "pypower/set_reorder.py:set_reorder"]}
{"id": "C07", "title": "Sparse user data is reordered like dense data", "statement": "Converting sparse data with a list of orderings (as is done for the user constraint matrix A and cost matrix N) gives the same matrix as converting the equivalent dense data.", "quantifier": "every sparse matrix and ordering list", "why_tests_cant": "tests only use dense data or cases where the permutation is the identity", "anchors": ["pypower/e2i_data.py:e2i_data", "pypower/ext2int.py:ext2int"]}
{"id": "C08", "title": "Old-style numbering conversion round trip", "statement": "The stand-alone bus renumbering routine numbers buses 0..nb-1 and its inverse restores the original bus numbers in bus, gen, branch and areas tables.", "quantifier": "every case with distinct bus numbers and valid references", "why_tests_cant": "all numberings, not the sampled ones", "anchors": ["pypower/ext2int.py:ext2int1", "pypower/int2ext.py:int2ext1"]}
{"id": "C09", "title": "Dangling bus references are not silently re-attached", "statement": "A generator or branch that refers to a bus number that is not in the bus table is never silently attached to some other bus by the conversion to internal numbering.", "quantifier": "every case containing a reference to a missing bus number", "why_tests_cant": "tests never contain malformed references", "anchors": ["pypower/ext2int.py:ext2int"]}
{"id": "C10", "title": "Bus classification is a partition with a reference bus", "statement": "The ref, pv and pq lists returned by bus classification are disjoint, every bus of type REF/PV/PQ is in exactly one of them, a bus without an in-service generator is PQ, at least one reference bus is returned, and when no declared reference has an in-service generator the first PV bus takes over; if there is no candidate the call fails rather than returning no reference.", "quantifier": "every bus table and generator table", "why_tests_cant": "all type / status patterns", "anchors": ["pypower/bustypes.py:bustypes"]}
{"id": "C11", "title": "Polynomial cost evaluation and derivatives", "statement": "Evaluating a polynomial cost row at p returns the sum of coefficient times power with the documented highest-order-first layout, and requesting derivative d returns the d-th derivative of that polynomial, for every row independently of the other rows and of zero padding.", "quantifier": "all coefficient lists of any order, all arguments, all derivative orders", "why_tests_cant": "numerical samples cannot establish a polynomial identity of arbitrary degree", "anchors": ["pypower/polycost.py:polycost"]}
{"id": "C12", "title": "Piecewise linear cost evaluation", "statement": "The total cost of a piecewise linear row passes through every breakpoint, is the straight line between neighbouring breakpoints, extends the first and last segments outside the range, and for convex data is the maximum of all segment lines.", "quantifier": "all breakpoint lists with increasing abscissae, all arguments", "why_tests_cant": "infinitely many breakpoints lists and arguments", "anchors": ["pypower/totcost.py:totcost"]}
{"id": "C13", "title": "Cost modification laws", "statement": "modcost implements its four documented operations: SCALE_F gives f(x)*a, SCALE_X gives f(x/a), SHIFT_F gives f(x)+a, SHIFT_X gives f(x-a), for polynomial and piecewise linear rows alike.", "quantifier": "every cost row of any order/number of breakpoints, every argument, every alpha (nonzero for SCALE_X)", "why_tests_cant": "identity over all polynomials and arguments", "anchors": ["pypower/modcost.py:modcost", "pypower/modcost.py:polyshift", "pypower/totcost.py:totcost"]}
{"id": "C14", "title": "Splitting active and reactive costs", "statement": "Cost rows are split into active rows (first ng) and reactive rows (last ng) when 2*ng rows are given, reactive part empty when ng rows are given; nothing is lost or reordered; any other number of rows is rejected.", "quantifier": "every table and generator selection", "why_tests_cant": "all sizes", "anchors": ["pypower/pqcost.py:pqcost"]}
{"id": "C15", "title": "Polynomial to piecewise linear conversion", "statement": "Converting a polynomial cost to npts breakpoints yields breakpoints that lie on the polynomial and span [PMIN, PMAX].", "quantifier": "every polynomial row, limits and number of points", "why_tests_cant": "identity over all polynomials", "anchors": ["pypower/poly2pwl.py:poly2pwl"]}
{"id": "C16", "title": "Cost epigraph constraints are exact", "statement": "For a convex piecewise linear cost, the linear constraints generated on the helper variable y hold at (Pg,y) iff y is at least the piecewise linear cost of Pg; hence the optimum of y equals the cost. The row for each generator refers to that generator's own output variable.", "quantifier": "every convex breakpoint list, every output value, every set of generators", "why_tests_cant": "equivalence over a continuum", "anchors": ["pypower/makeAy.py:makeAy", "pypower/totcost.py:totcost"]}
{"id": "C17", "title": "One-segment costs become linear without changing value", "statement": "When the OPF set-up replaces a two-point piecewise linear cost by a polynomial, the total cost of every output value is unchanged.", "quantifier": "all two-point cost rows, all outputs", "why_tests_cant": "identity over a continuum", "anchors": ["pypower/opf_setup.py:opf_setup", "pypower/totcost.py:totcost"]}
{"id": "C18", "title": "DC OPF objective equals total cost", "statement": "The quadratic objective (HH, CC, C0) handed to the QP solver by the DC OPF equals, for every x, the sum of the generators' polynomial costs at Pg in MW plus the sum of the piecewise-linear helper variables plus the user-defined costs 1/2 w'Hw + Cw'w with w = M(Nx - rh).", "quantifier": "all cost tables, all user cost parameters, all x", "why_tests_cant": "an identity in arbitrarily many variables", "anchors": ["pypower/dcopf_solver.py:dcopf_solver"]}
{"id": "C19", "title": "AC OPF cost function equals total cost", "statement": "The AC OPF objective at x equals the sum of all generators' polynomial costs at Pg (and Qg) in MW (MVAr), plus the y variables, and its reported gradient is the derivative of that value.", "quantifier": "all cost tables, all x", "why_tests_cant": "identity and derivative over a continuum", "anchors": ["pypower/opf_costfcn.py:opf_costfcn"]}
{"id": "C20", "title": "Total load sums each zone", "statement": "total_load returns for every zone the sum of the fixed demand of its buses and, when requested, of the dispatchable loads (negative generators) in service at its buses; zones are independent and the grand total is the sum of the zones.", "quantifier": "all bus/gen tables, zone maps and load-type selections", "why_tests_cant": "all zone maps and statuses", "anchors": ["pypower/total_load.py:total_load", "pypower/isload.py:isload"]}
{"id": "C21", "title": "Load scaling hits its target", "statement": "With scale factors every fixed/dispatchable load in zone k is multiplied by factor k; with target quantities the zone total after scaling equals the requested quantity; loads outside any zone are untouched; an impossible request raises an error.", "quantifier": "all bus/gen tables, zones, factors/targets", "why_tests_cant": "all zone maps; equality over reals", "anchors": ["pypower/scale_load.py:scale_load", "pypower/total_load.py:total_load"]}
{"id": "C22", "title": "Admittance matrix obeys Kirchhoff's current law", "statement": "For every voltage vector the product Ybus*V at each bus equals the sum of the currents drawn by its shunt and by the in-service branches leaving it, where branch currents Yf*V, Yt*V are those of the standard pi model with off-nominal tap and phase shift.", "quantifier": "every network, every voltage vector, parallel branches and self loops included", "why_tests_cant": "quantifies over all networks and voltages", "anchors": ["pypower/makeYbus.py:makeYbus"]}
{"id": "C23", "title": "Out-of-service branches do not influence the admittances", "statement": "Removing a branch whose status is 0 does not change Ybus; without phase shifters Ybus is symmetric; tap 0 is treated as tap 1.", "quantifier": "every network", "why_tests_cant": "all networks", "anchors": ["pypower/makeYbus.py:makeYbus"]}
{"id": "C24", "title": "DC model is lossless", "statement": "In the DC model the from-end flow Bf*theta+Pfinj of each branch is (theta_f - theta_t - shift)/(x*tap) (0 if out of service), bus injections Bbus*theta+Pbusinj are the sums of flows leaving the bus, their total over all buses is zero, Bbus is symmetric and its rows sum to zero.", "quantifier": "every network and angle vector", "why_tests_cant": "all networks and angles", "anchors": ["pypower/makeBdc.py:makeBdc"]}
{"id": "C25", "title": "Power transfer distribution factors", "statement": "The PTDF matrix has zero columns at the slack bus, and multiplying it by any balanced injection gives the change of DC branch flows for that injection: superposition with the slack absorbing the imbalance; a distributed slack vector gives PTDF * (I - slack*1').", "quantifier": "all networks whose reduced B matrix is invertible, all injections", "why_tests_cant": "all networks and injection vectors", "anchors": ["pypower/makePTDF.py:makePTDF"]}
{"id": "C26", "title": "Line outage distribution factors", "statement": "For every branch pair, adding LODF[l,k] times the pre-outage flow of k to the flow of l gives the DC flow on l after removing k; LODF diagonal entries are -1 so that the outaged branch carries zero.", "quantifier": "all networks, injections and outages that do not island the network", "why_tests_cant": "all networks", "anchors": ["pypower/makeLODF.py:makeLODF"]}
{"id": "C27", "title": "Bus injections sum generation minus load", "statement": "The complex bus injection is, at each bus, the sum of the outputs of its in-service generators minus its demand, divided by baseMVA; out-of-service generators do not count.", "quantifier": "every bus/gen table", "why_tests_cant": "all tables", "anchors": ["pypower/makeSbus.py:makeSbus"]}
{"id": "C28", "title": "Slack generator balances the system", "statement": "After a solved power flow the active outputs of the generators at the reference bus sum to the power the network and local load need at that bus; other generators keep their scheduled active power; reactive power of a bus is shared among its generators so that the shares add up to the required total, in proportion to their ranges.", "quantifier": "every solved voltage vector, every set of generators per bus", "why_tests_cant": "all generator layouts and limit patterns", "anchors": ["pypower/pfsoln.py:pfsoln"]}
{"id": "C29", "title": "DC power flow solves the DC equations", "statement": "The angles returned by the DC power flow satisfy the power balance at every non-reference bus and keep the reference angles; with the slack update in the driver, generation equals demand over the whole network.", "quantifier": "every network for which the linear solver returns a solution", "why_tests_cant": "all networks", "anchors": ["pypower/dcpf.py:dcpf", "pypower/runpf.py:runpf"]}
{"id": "C30", "title": "Newton power flow: converged means solved", "statement": "If the Newton power flow reports convergence the returned voltages satisfy every P mismatch at PV/PQ buses and every Q mismatch at PQ buses within tolerance; it performs at most PF_MAX_IT updates; voltage magnitudes at PV buses and the complex voltage at reference buses are those of the initial guess (magnitudes up to the sign normalisation).", "quantifier": "every network, every start, every linear solver result", "why_tests_cant": "iteration histories are unbounded and data dependent", "anchors": ["pypower/newtonpf.py:newtonpf"]}
{"id": "C31", "title": "Gauss-Seidel power flow: converged means solved", "statement": "If Gauss-Seidel reports convergence all mismatches are below tolerance, the number of sweeps does not exceed the limit, the reference voltage never changes and PV magnitudes stay at their set points.", "quantifier": "every network and start", "why_tests_cant": "unbounded iterations", "anchors": ["pypower/gausspf.py:gausspf"]}
{"id": "C32", "title": "Fast-decoupled power flow: converged means solved", "statement": "If the fast decoupled power flow reports convergence both the P and Q normalised mismatches are below tolerance, the iteration count does not exceed the limit, and only PV/PQ angles and PQ magnitudes are ever changed.", "quantifier": "every network and start", "why_tests_cant": "unbounded iterations", "anchors": ["pypower/fdpf.py:fdpf"]}
{"id": "C33", "title": "Reactive limit enforcement", "statement": "With Q-limit enforcement the power flow driver terminates; each round fixes at least one more generator at a violated limit or stops; generators that are not fixed are within limits on success.", "quantifier": "every network and limit pattern", "why_tests_cant": "round histories are data dependent", "anchors": ["pypower/runpf.py:runpf"]}
{"id": "C34", "title": "Interior point iterates stay strictly interior", "statement": "All slack variables and inequality multipliers of the interior point solver remain strictly positive at every iteration, whatever the search direction, so logarithms and divisions by them are defined.", "quantifier": "every problem, every iteration, every direction returned by the linear solver", "why_tests_cant": "unbounded iterations with arbitrary directions", "anchors": ["pypower/pips.py:pips"]}
{"id": "C35", "title": "Interior point success means KKT tolerances met", "statement": "The interior point solver reports success only if feasibility, gradient, complementarity and cost conditions are all below tolerance at the returned point, never exceeds max_it iterations, and otherwise reports failure (max iterations or numerical failure).", "quantifier": "every problem and option set", "why_tests_cant": "unbounded iterations", "anchors": ["pypower/pips.py:pips"]}
{"id": "C36", "title": "Bound/linear constraint splitting is exact", "statement": "The solver splits l<=Ax<=u and xmin<=x<=xmax into equalities, one-sided and two-sided inequalities; a point satisfies the split system iff it satisfies the original one (up to eps for equalities), and multipliers are returned at the index of the constraint they came from with lower/upper parts non-negative.", "quantifier": "every l,u with infinities, every A, every x", "why_tests_cant": "all bound patterns", "anchors": ["pypower/pips.py:pips"]}
{"id": "C37", "title": "Solver dispatch", "statement": "An unknown QP algorithm code is rejected instead of being handed to some solver; each documented code reaches its own solver.", "quantifier": "every algorithm code", "why_tests_cant": "all integers", "anchors": ["pypower/qps_pypower.py:qps_pypower", "pypower/opf_execute.py:opf_execute"]}
{"id": "C38", "title": "Variable and constraint blocks tile the problem", "statement": "After any sequence of additions of distinctly named blocks, the blocks occupy consecutive, disjoint index ranges covering 0..N-1 in the order of addition, and the number of variables/constraints/costs equals the sum of block sizes; indices of existing blocks never move.", "quantifier": "every history of add_vars/add_constraints/add_costs calls", "why_tests_cant": "unbounded histories", "anchors": ["pypower/opf_model.py:opf_model.add_vars", "pypower/opf_model.py:opf_model.add_constraints", "pypower/opf_model.py:opf_model.add_costs", "pypower/opf_model.py:opf_model.getN"]}
{"id": "C39", "title": "Duplicate block names are rejected", "statement": "Adding a block under a name already in use does not disturb the model.", "quantifier": "every history containing a repeated name", "why_tests_cant": "histories", "anchors": ["pypower/opf_model.py:opf_model.add_vars", "pypower/opf_model.py:opf_model.add_constraints"]}
{"id": "C40", "title": "Assembled variable bounds", "statement": "The initial values and bounds vectors returned for the whole model are the concatenation, in order of addition, of the blocks' values, with documented defaults (0, -inf, +inf) for omitted ones; asking for one name returns that block.", "quantifier": "every history", "why_tests_cant": "histories", "anchors": ["pypower/opf_model.py:opf_model.getv", "pypower/opf_model.py:opf_model.add_vars"]}
{"id": "C41", "title": "Assembled linear constraints mean what the blocks say", "statement": "For every x, row block k of the assembled l<=A x<=u equals block k's own matrix applied to the concatenation of the variable blocks it names, with its own bounds.", "quantifier": "every history of distinct names, every x", "why_tests_cant": "histories and a continuum", "anchors": ["pypower/opf_model.py:opf_model.linear_constraints", "pypower/opf_model.py:opf_model.add_constraints"]}
{"id": "C42", "title": "Default variable set of a constraint is frozen", "statement": "A constraint added without naming variable sets refers to the variable blocks that existed when it was added and keeps its meaning when more variables are added later.", "quantifier": "every history", "why_tests_cant": "histories", "anchors": ["pypower/opf_model.py:opf_model.add_constraints"]}
{"id": "C43", "title": "User cost parameters are kept", "statement": "The cost parameters (N, H, Cw, dd, rh, kk, mm) supplied when a cost block is added are the ones used when the model is assembled.", "quantifier": "every history of add_costs", "why_tests_cant": "histories", "anchors": ["pypower/opf_model.py:opf_model.add_costs", "pypower/opf_model.py:opf_model.build_cost_params"]}
{"id": "C44", "title": "Reading cost parameters does not change the model", "statement": "Asking for the cost parameters or for the cost of one block does not change the result of any later query.", "quantifier": "every history of queries", "why_tests_cant": "histories", "anchors": ["pypower/opf_model.py:opf_model.get_cost_params", "pypower/opf_model.py:opf_model.compute_cost"]}
{"id": "C45", "title": "User cost value", "statement": "compute_cost returns 1/2 w'Hw + Cw'w where w is obtained from r = Nx - rh by the documented dead-zone (kk), linear/quadratic (dd) and scale (mm) rules.", "quantifier": "all parameters and x", "why_tests_cant": "continuum", "anchors": ["pypower/opf_model.py:opf_model.compute_cost"]}
{"id": "C46", "title": "User callback registry", "statement": "Callbacks registered for a stage run in registration order with their own arguments, each receiving the result of the previous one; removing a callback deletes exactly the most recently registered instance in that stage and nothing else; other stages are unaffected.", "quantifier": "every history of add/remove, every stage", "why_tests_cant": "histories", "anchors": ["pypower/add_userfcn.py:add_userfcn", "pypower/remove_userfcn.py:remove_userfcn", "pypower/run_userfcn.py:run_userfcn"]}
{"id": "C47", "title": "Switching an extension on then off restores the case", "statement": "Turning reserves / interface limits / DC lines on registers one callback at each of the five stages; turning it off again leaves the callbacks exactly as before.", "quantifier": "every prior registry", "why_tests_cant": "all prior registries", "anchors": ["pypower/toggle_reserves.py:toggle_reserves", "pypower/toggle_iflims.py:toggle_iflims", "pypower/toggle_dcline.py:toggle_dcline"]}
{"id": "C48", "title": "Option override", "statement": "ppoption returns the defaults overridden by the given options and then by keyword arguments, the last setting of a name wins, unspecified options keep their value and the caller's options are not modified.", "quantifier": "every sequence of overrides", "why_tests_cant": "all sequences", "anchors": ["pypower/ppoption.py:ppoption"]}
{"id": "C49", "title": "Version-1 case conversion keeps the data", "statement": "Loading a version-1 case yields the version-2 column layout with every version-1 column value at its version-2 position and neutral values (zero, angle limits of -360 and 360 degrees) in the new columns.", "quantifier": "every v1 table with or without solution columns", "why_tests_cant": "all tables", "anchors": ["pypower/loadcase.py:loadcase", "pypower/loadcase.py:ppc_1to2"]}
{"id": "C50", "title": "Saved cases keep all columns that are present", "statement": "The saved case file contains, for every table, the base columns and every solution column block present in the data.", "quantifier": "every column count", "why_tests_cant": "all table widths", "anchors": ["pypower/savecase.py:savecase"]}
{"id": "C51", "title": "Unit decommitment never makes things worse", "statement": "The unit-decommitment OPF returns a solution whose objective is no larger than that of any stage it started from, only ever switches units off, and terminates.", "quantifier": "every case and every OPF solver behaviour", "why_tests_cant": "search histories", "anchors": ["pypower/uopf.py:uopf", "pypower/fairmax.py:fairmax"]}
{"id": "C52", "title": "Branch angle limits", "statement": "The angle difference constraints hold at theta iff for every branch with a non-trivial limit angmin <= theta_f - theta_t <= angmax; unlimited branches are not constrained; disabled when the option to ignore limits is set.", "quantifier": "all branch tables and angles", "why_tests_cant": "continuum", "anchors": ["pypower/makeAang.py:makeAang"]}
{"id": "C53", "title": "Constant power factor for dispatchable loads", "statement": "The equality rows generated for dispatchable loads hold at (Pg,Qg) iff Pg*Qlim = Qg*PMIN for each such load: P and Q keep the ratio given by its limits; inconsistent or ambiguous limits are rejected.", "quantifier": "all generator tables and outputs", "why_tests_cant": "continuum", "anchors": ["pypower/makeAvl.py:makeAvl"]}
{"id": "C54", "title": "Capability curve constraints", "statement": "For generators with a sloped PQ capability the generated half planes hold iff (Pg,Qg) lies on the inner side of the lines through (PC1,QC1MAX)-(PC2,QC2MAX) and (PC1,QC1MIN)-(PC2,QC2MIN), and generators whose curve is redundant within the box get no rows.", "quantifier": "all generator tables and outputs", "why_tests_cant": "continuum", "anchors": ["pypower/makeApq.py:makeApq", "pypower/hasPQcap.py:hasPQcap"]}
{"id": "C55", "title": "Interface flow limits", "statement": "The interface constraint k bounds exactly the signed sum of the DC flows of the in-service branches assigned to interface k; out-of-service branches are ignored, all in-service ones are counted, and the external map is restored unchanged.", "quantifier": "all maps, branch statuses and angles", "why_tests_cant": "continuum and all maps", "anchors": ["pypower/toggle_iflims.py:userfcn_iflims_ext2int", "pypower/toggle_iflims.py:userfcn_iflims_formulation", "pypower/toggle_iflims.py:userfcn_iflims_int2ext"]}
{"id": "C56", "title": "DC line dummy generators", "statement": "For each in-service DC line the two dummy generators inject -Pf at the from bus and Pf - loss0 - loss1*Pf at the to bus, the limits on them encode PMIN<=Pf<=PMAX in the flow direction, and after the solve the extra generators are removed and flows are written back to the in-service rows.", "quantifier": "all dcline tables and solutions", "why_tests_cant": "continuum", "anchors": ["pypower/toggle_dcline.py:userfcn_dcline_ext2int", "pypower/toggle_dcline.py:userfcn_dcline_formulation", "pypower/toggle_dcline.py:userfcn_dcline_int2ext"]}
{"id": "C57", "title": "Reserve requirements", "statement": "The reserve constraints hold at (Pg,R) iff Pg_i+R_i <= PMAX_i for every reserve-providing generator and every zone's reserves meet its requirement; 0<=R_i<=min(ramp10 (if nonzero), qty_i); the reserve cost is the sum of cost_i*R_i.", "quantifier": "all reserve tables and outputs", "why_tests_cant": "continuum", "anchors": ["pypower/toggle_reserves.py:userfcn_reserves_formulation"]}
{"id": "C58", "title": "Bus injection Jacobian is the true derivative", "statement": "The matrices of partial derivatives of complex bus injections with respect to voltage magnitude and angle are the exact partial derivatives of S(V) = V * conj(Ybus V) wherever magnitudes are nonzero.", "quantifier": "all admittance matrices and voltages", "why_tests_cant": "derivative identities over a continuum; finite differences only approximate", "anchors": ["pypower/dSbus_dV.py:dSbus_dV"]}
{"id": "C59", "title": "Branch flow and current Jacobians are the true derivatives", "statement": "The branch power and branch current sensitivity matrices are the exact partial derivatives of the branch flows, and the squared-flow sensitivities are the exact derivatives of |flow|^2.", "quantifier": "all networks and voltages", "why_tests_cant": "derivative identities", "anchors": ["pypower/dSbr_dV.py:dSbr_dV", "pypower/dIbr_dV.py:dIbr_dV", "pypower/dAbr_dV.py:dAbr_dV"]}
{"id": "C60", "title": "Second derivatives are the true Hessians", "statement": "The second-derivative matrices returned for bus injections, branch flows, branch currents and their squared magnitudes are the exact partial derivatives of the multiplier-weighted first derivatives.", "quantifier": "all networks, voltages and multipliers", "why_tests_cant": "derivative identities", "anchors": ["pypower/d2Sbus_dV2.py:d2Sbus_dV2", "pypower/d2Sbr_dV2.py:d2Sbr_dV2", "pypower/d2Ibr_dV2.py:d2Ibr_dV2", "pypower/d2ASbr_dV2.py:d2ASbr_dV2", "pypower/d2AIbr_dV2.py:d2AIbr_dV2"]}
{"id": "C61", "title": "Continuation corrector: converged means on the curve", "statement": "If the corrector reports convergence the power balance at loading lambda and the parameterisation equation both hold within tolerance; at most PF_MAX_IT updates are made.", "quantifier": "all networks, starts and linear solver results", "why_tests_cant": "unbounded iterations", "anchors": ["pypower/cpf_corrector.py:cpf_corrector", "pypower/cpf_p.py:cpf_p"]}
{"id": "C62", "title": "Continuation parameterisation equation and its gradient", "statement": "Natural, arc-length and pseudo-arc-length parameterisations measure the step as documented, and the reported partial derivatives are the derivatives of the parameterisation function (away from the branch point of the natural one).", "quantifier": "all states, tangents and steps", "why_tests_cant": "continuum", "anchors": ["pypower/cpf_p.py:cpf_p", "pypower/cpf_p_jac.py:cpf_p_jac"]}
{"id": "C63", "title": "Continuation step control and stopping", "statement": "The adapted step stays within the configured bounds; the trace stops at the nose, at the requested lambda (within 1e-8) or after returning to lambda = 0 as requested, and the recorded lambda history has one entry per step.", "quantifier": "every trace history", "why_tests_cant": "histories", "anchors": ["pypower/runcpf.py:runcpf", "pypower/cpf_callbacks.py:cpf_default_callback"]}
{"id": "C64", "title": "Splitting capability-curve multipliers", "statement": "The multipliers of the sloped capability constraints are redistributed to the P and Q limit multipliers so that the total gradient contribution is preserved and only non-negative amounts are added to the bound the sign indicates.", "quantifier": "all multipliers and slopes", "why_tests_cant": "continuum", "anchors": ["pypower/update_mupq.py:update_mupq"]}
{"id": "C65", "title": "Out-of-service equipment reports zero results", "statement": "After a power flow or OPF the flows of out-of-service branches and outputs of out-of-service generators are zero in the returned external tables, and in-service rows are untouched by this step.", "quantifier": "all cases and solutions", "why_tests_cant": "all status patterns", "anchors": ["pypower/runpf.py:runpf", "pypower/opf.py:opf"]}
{"id": "C66", "title": "Linear index conversion", "statement": "Converting (row, column) pairs to linear indices is injective within the matrix shape and consistent with row-major / column-major flattening.", "quantifier": "all shapes and subscripts", "why_tests_cant": "all shapes", "anchors": ["pypower/util.py:sub2ind"]}
{"id": "C67", "title": "Per-block user cost values after an OPF", "statement": "After a successful OPF the reported cost of each named user cost block is the value of that block's general cost at the solution, for every number of blocks.", "quantifier": "every sequence of cost blocks and every solution vector", "why_tests_cant": "unbounded build histories", "anchors": ["pypower/opf_execute.py:opf_execute", "pypower/opf_model.py:compute_cost"]}
{"id": "C68", "title": "Interior point search direction is the Newton direction", "statement": "The direction computed from the reduced linear system is the Newton direction of the perturbed optimality (KKT) conditions: linearised stationarity, equality, inequality-with-slack and complementarity all hold for (dx, dlam, dz, dmu).", "quantifier": "every problem, every interior state, every exact solution of the reduced system", "why_tests_cant": "continuum of problems and states", "anchors": ["pypower/pips.py:pips"]}
{"id": "C69", "title": "Newton power flow update is the Newton step", "statement": "When the linear solver is exact, the voltage update made by one Newton iteration is the Newton step of the mismatch equations: along the update every active mismatch at PV/PQ buses and reactive mismatch at PQ buses decreases at the rate that would cancel it.", "quantifier": "every network, state and exact linear solution", "why_tests_cant": "derivative identity over a continuum, index bookkeeping for every bus list", "anchors": ["pypower/newtonpf.py:newtonpf", "pypower/dSbus_dV.py:dSbus_dV"]}
{"id": "C70", "title": "A successful AC power flow is consistent end to end", "statement": "After a successful Newton power flow the reported voltages, generation and demand balance the network equations at every bus (exactly at reference buses for active power, within tolerance elsewhere), and at every generator bus that is not PQ the reported voltage magnitude is the set point of the last in-service generator listed there.", "quantifier": "every case, every linear solver, every iteration history", "why_tests_cant": "unbounded iterations composed with table updates for every network", "anchors": ["pypower/runpf.py:runpf", "pypower/newtonpf.py:newtonpf", "pypower/pfsoln.py:pfsoln", "pypower/makeSbus.py:makeSbus"]}
{"id": "C71", "title": "Result columns exist before they are written", "statement": "A case given with input columns only (any number of columns) gets zero result columns before results are written, and given columns are kept.", "quantifier": "all tables", "why_tests_cant": "all column counts", "anchors": ["pypower/runpf.py:runpf", "pypower/opf.py:opf"]}
{"id": "C72", "title": "Continuation predictor follows the tangent", "statement": "The predictor of the continuation power flow moves along the unit tangent of the power balance curve: the predicted point is exactly one step length along it, the power balance and the scheduled injection line change to first order consistently, and the direction points forward according to the chosen parameterisation.", "quantifier": "every network, transfer direction, parameterisation and step length; any exact linear solver", "why_tests_cant": "a derivative statement for every network and point", "anchors": ["pypower/cpf_predictor.py:cpf_predictor", "pypower/cpf_p_jac.py:cpf_p_jac"]}
{"id": "C73", "title": "AC OPF constraints mean power balance and branch limits", "statement": "The constraint vectors evaluated by the AC OPF mean what the documentation says: the equality part vanishes exactly when complex power balances at every bus (in-service generation minus demand equals what flows into the network), and the inequality part is non-positive exactly when the limited quantity (apparent power, active power or current, by option OPF_FLOW_LIM) at each end of each constrained branch is within RATE_A, a zero rating meaning no limit.", "quantifier": "every network, operating point, limit option and rating", "why_tests_cant": "an equivalence over all complex voltage vectors", "anchors": ["pypower/opf_consfcn.py:opf_consfcn"]}
{"id": "C74", "title": "AC OPF constraint Jacobians are the derivatives of the constraints", "statement": "Every column of the two Jacobians returned with the AC OPF constraints is the exact partial derivative of the constraint values with respect to that optimisation variable, including zero columns for variables that do not enter.", "quantifier": "every network, positive voltage magnitudes, every variable including user variables, all limit options", "why_tests_cant": "a derivative statement at every point, not only at finite-difference samples", "anchors": ["pypower/opf_consfcn.py:opf_consfcn"]}
{"id": "C75", "title": "AC OPF Hessian is the second derivative of the Lagrangian", "statement": "The matrix returned by the Hessian callback of the AC OPF is the matrix of second derivatives of the Lagrangian (scaled cost plus multiplier-weighted constraints) for all multipliers, generator costs of any polynomial degree and active or reactive power, and user costs.", "quantifier": "every network, point, multiplier vector, cost table and limit option", "why_tests_cant": "a derivative statement for all points and multipliers", "anchors": ["pypower/opf_hessfcn.py:opf_hessfcn"]}
{"id": "C76", "title": "Interior point solver: bounds and linear constraints", "statement": "For a problem with variable bounds, linear and nonlinear constraints, a successful pips run returns a point satisfying every one of them up to the feasibility tolerance, multipliers of inequality type are non-negative and zero for absent bounds, and the returned multipliers (lower, upper, mu_l, mu_u, eqnonlin, ineqnonlin) together make the gradient of the caller's Lagrangian vanish up to the gradient tolerance, in the caller's cost units.", "quantifier": "every problem with sensible bounds, starting point, options, and linear solver behaviour", "why_tests_cant": "continuum of problems, arbitrary mixtures of equality, one-sided and two-sided rows", "anchors": ["pypower/pips.py:pips"]}
{"id": "C77", "title": "A successful DC OPF is a feasible dispatch", "statement": "When the DC optimal power flow reports success, the reported tables balance active power at every bus, respect every branch limit in both directions and every generator limit, keep reference angles, report flows of the linear network model at the reported angles, satisfy all further (user) variables bounds and linear constraints, and report the objective at the reported point; tolerances are those of the solver.", "quantifier": "every well-posed case, every list of further variables and constraints, objective, options and starting point", "why_tests_cant": "all networks; unbounded iterations composed with assembly, packing and unpacking of vectors", "anchors": ["pypower/dcopf_solver.py:dcopf_solver", "pypower/opf_setup.py:opf_setup", "pypower/qps_pips.py:qps_pips", "pypower/pips.py:pips"]}
{"id": "C78", "title": "DC OPF prices", "statement": "When the DC optimal power flow reports success, the marginal cost of every generator equals the reported price at its bus corrected by the reported shadow prices of its limits (and of further constraints on it), price differences across the network are explained by the reported shadow prices of flow limits alone, and shadow prices are non-negative and zero for unlimited branches.", "quantifier": "every well-posed case, every list of further variables and constraints, objective, options and starting point", "why_tests_cant": "multipliers are re-signed, re-scaled and re-packed several times; every mixture of constraints", "anchors": ["pypower/dcopf_solver.py:dcopf_solver", "pypower/pips.py:pips", "pypower/opf_setup.py:opf_setup"]}
{"id": "C79", "title": "A successful AC OPF is a feasible operating point", "statement": "When the AC optimal power flow reports success, the reported tables balance active and reactive power at every bus, respect every branch limit at both ends (apparent power, active power or current, as chosen), every generator limit and voltage limit, keep reference angles, report flows of the standard branch model at the reported voltages, satisfy all further (user) variable bounds and linear constraints, and report the total cost at the reported point; tolerances are those of the solver.", "quantifier": "every well-posed case, every list of further variables and constraints, costs, limit option, solver options and starting point", "why_tests_cant": "all networks; unbounded iterations composed with assembly, packing and unpacking of vectors and nonlinear callbacks", "anchors": ["pypower/pipsopf_solver.py:pipsopf_solver", "pypower/opf_setup.py:opf_setup", "pypower/opf_consfcn.py:opf_consfcn", "pypower/pips.py:pips"]}
{"id": "C80", "title": "AC OPF prices", "statement": "When the AC optimal power flow reports success, the marginal cost of every generator (active and reactive) equals the reported price at its bus corrected by the reported shadow prices of its limits; for every angle and voltage magnitude the reported prices, flow limit and voltage limit shadow prices together balance, with the true derivatives of the power flows; shadow prices are non-negative, zero for unlimited branches, and the packed multipliers of nonlinear constraints agree with the tables.", "quantifier": "every well-posed case, every list of further variables and constraints, costs, limit option, solver options and starting point", "why_tests_cant": "multipliers are re-signed, re-scaled (limits are on squares) and re-packed several times; derivative statements", "anchors": ["pypower/pipsopf_solver.py:pipsopf_solver", "pypower/pips.py:pips", "pypower/opf_consfcn.py:opf_consfcn"]}
{"id": "C81", "title": "The AC OPF runs on every well-posed case", "statement": "For every well-posed case the AC optimal power flow returns result tables (success or not) instead of raising, whether or not branches have limits and generators have reactive power costs.", "quantifier": "every well-posed case, options, starting point, behaviour of the linear solver", "why_tests_cant": "termination without exception for all networks and cost tables", "anchors": ["pypower/pipsopf_solver.py:pipsopf_solver", "pypower/opf_hessfcn.py:opf_hessfcn"]}
{"id": "C82", "title": "Success of the interior point solver on a convex problem means a global minimum", "statement": "When pips reports success on a convex problem (convex objective and inequality constraints, linear equality constraints), no feasible point has an objective lower than the returned one by more than an amount that is an explicit function of the tolerances, the norm of the result and its multipliers, and goes to zero with the tolerances.", "quantifier": "every convex problem, bounds, linear constraints, options, starting point, behaviour of the linear solver; every feasible competitor", "why_tests_cant": "compares with all (infinitely many) feasible points; local termination tests imply a global statement only through convexity and duality", "anchors": ["pypower/pips.py:pips"]}
{"id": "C83", "title": "The DC optimal power flow finds the cheapest dispatch", "statement": "When the DC optimal power flow reports success for convex generator costs (piecewise linear with rising slopes, linear, or quadratic) and convex user costs, the reported objective is at least the cost of the reported dispatch as totcost evaluates it from the gencost table (plus user costs), and no dispatch and angles that supply the demand within all limits is cheaper, both up to an explicit function of the solver's tolerances.", "quantifier": "every case, every mix of cost models, every further linear constraint and user cost, every alternative dispatch, options, starting point, linear solver", "why_tests_cant": "optimality against all feasible dispatches; depends on helper variables, cost conversion, objective assembly, matrix stacking and the solver together", "anchors": ["pypower/dcopf_solver.py:dcopf_solver", "pypower/opf_setup.py:opf_setup", "pypower/makeAy.py:makeAy", "pypower/totcost.py:totcost", "pypower/pips.py:pips"]}
{"id": "C84", "title": "Shadow prices are paid only at binding limits", "statement": "When pips, the DC OPF or the AC OPF reports success, the reported shadow price of every bound and every linear constraint times its unused margin is at most an explicit function of the tolerances; in the tables: MU_PMAX (PMAX - PG), MU_PMIN (PG - PMIN), for DC also MU_SF (RATE_A - PF) and MU_ST (RATE_A - PT), for AC also the reactive and voltage magnitude limits.", "quantifier": "every problem / case, further constraints, options, starting point, linear solver", "why_tests_cant": "multipliers are split by sign between lower and upper and between equality and inequality groups; every grouping must be right for all mixes of bounds", "anchors": ["pypower/pips.py:pips", "pypower/dcopf_solver.py:dcopf_solver", "pypower/pipsopf_solver.py:pipsopf_solver"]}
{"id": "C85", "title": "At the reported prices no generator would rather produce something else", "statement": "When the DC or AC optimal power flow reports success, then paid the reported nodal price LAM_P for its output no generator with a convex cost (DC: piecewise linear, linear or quadratic; AC: polynomial) earns more with any other output within its limits, up to an explicit function of the solver's tolerances, unless further constraints or user costs involve its output.", "quantifier": "every case, cost table, further constraints and variables, options, starting point, linear solver; every alternative output", "why_tests_cant": "relates prices, costs and limits over all outputs; goes wrong silently with any sign, scale or index error in multipliers or helper variables", "anchors": ["pypower/dcopf_solver.py:dcopf_solver", "pypower/pipsopf_solver.py:pipsopf_solver", "pypower/makeAy.py:makeAy", "pypower/opf_setup.py:opf_setup"]}
{"id": "C86", "title": "opf() returns a balanced, feasible solution in the caller's own tables", "statement": "For any well-formed case with arbitrary bus numbers, row order, isolated buses and out-of-service equipment, the tables returned by a successful opf(): at every connected bus the generation, demand, shunts and flows summed over all rows balance (DC active; AC active and reactive), generators in service, voltages and branch flows obey their limits, reference angles are kept, flows are those of the branch model at the returned voltages; successful or not, all input columns and the row order are unchanged and outputs and flows of out-of-service equipment are zero; opf() returns on every case with data in range.", "quantifier": "every well-formed case, tolerance, user constraints, cost, options, starting point, linear solver; AC and DC", "why_tests_cant": "composition of renumbering, formulation, solution, write-back and conversion back: rows of all tables must line up for all numberings and statuses", "anchors": ["pypower/opf.py:opf", "pypower/ext2int.py:ext2int", "pypower/int2ext.py:int2ext", "pypower/opf_execute.py:opf_execute", "pypower/dcopf_solver.py:dcopf_solver", "pypower/pipsopf_solver.py:pipsopf_solver"]}
{"id": "C87", "title": "runpf() returns a solved power flow in the caller's own tables", "statement": "For any well-formed case with arbitrary bus numbers, row order, isolated buses and out-of-service equipment, the tables returned by a successful AC power flow with any algorithm: active power balances at every connected bus over all rows (exactly at slack buses), reactive power balances at buses without generators and is met by the generators elsewhere, slack and PV buses are at the set point of a generator in service, slack angles are kept, only slack generators change their active output, branch flows are those of the branch model at the returned voltages. A DC power flow balances active power exactly at every connected bus, keeps slack angles and makes lossless flows. Input columns and row order are unchanged, outputs and flows of out-of-service equipment are zero; success is never reported for NaN results; a case with a slack bus never raises (DC; AC by Newton or Gauss-Seidel without reactive limits).", "quantifier": "every well-formed case, tolerance, iteration limit, starting point, linear solver; AC (Newton, fast-decoupled XB/BX, Gauss-Seidel) and DC", "why_tests_cant": "composition of renumbering, bus classification, network matrices, solver, write-back and conversion back; must hold for all numberings, statuses and bus types", "anchors": ["pypower/runpf.py:runpf", "pypower/ext2int.py:ext2int", "pypower/int2ext.py:int2ext", "pypower/bustypes.py:bustypes", "pypower/pfsoln.py:pfsoln", "pypower/newtonpf.py:newtonpf", "pypower/fdpf.py:fdpf", "pypower/gausspf.py:gausspf", "pypower/dcpf.py:dcpf"]}
{"id": "C88", "title": "The DC power flow of a connected network has exactly one solution", "statement": "If every branch in service has positive susceptance and every bus is joined to a slack bus through branches in service, the system solved by the DC power flow is regular and its angles are the only ones meeting the injections with the given slack angles; an island without slack bus makes it singular.", "quantifier": "every network, every choice of slack buses", "why_tests_cant": "existence and uniqueness over all networks", "anchors": ["pypower/dcpf.py:dcpf", "pypower/makeBdc.py:makeBdc"]}
{"id": "C89", "title": "The fast-decoupled power flow solves the decoupled systems it is documented to solve", "statement": "Each half-iteration changes only the angles of PV and PQ buses by the solution of B' dVa = -dP/Vm, respectively only the magnitudes of PQ buses by the solution of B'' dVm = -dQ/Vm. B' is the matrix of series susceptances without shunts, line charging and turns ratios, phase shifters kept (XB: without resistances), B'' keeps shunts, charging and taps but no phase shifters (BX: without resistances).", "quantifier": "every network without singular branches, every set of bus types, every voltage vector without zero magnitudes, every exact factorisation", "why_tests_cant": "a wrong matrix or sign still converges on many test cases, only slower; equality must hold entry by entry for all networks", "anchors": ["pypower/fdpf.py:fdpf", "pypower/makeB.py:makeB", "pypower/runpf.py:runpf"]}
{"id": "C90", "title": "The continuation corrector takes Newton steps on the augmented system", "statement": "One corrector iteration moves angles of PV and PQ buses, magnitudes of PQ buses and lambda along a straight line along which every balance at loading lambda (active at PV and PQ, reactive at PQ buses) and the parameterisation function decrease at the rate that makes them vanish at its end, to first order.", "quantifier": "every network, transfer, parameterisation, point with nonzero voltages, every exact linear solver", "why_tests_cant": "a wrong Jacobian column or sign still converges from good starting points; derivative along a curve for all networks", "anchors": ["pypower/cpf_corrector.py:cpf_corrector", "pypower/cpf_p_jac.py:cpf_p_jac", "pypower/cpf_p.py:cpf_p"]}
{"id": "C91", "title": "The printed summaries balance and agree with the tables", "statement": "The system summary printed after a power flow or optimal power flow satisfies generation - load + shunt injection - losses = 0 up to the tolerance of the calculation (reactive: plus line charging), for DC with zero losses; the lines of the bus table add up to the totals of the system summary; generation - load + shunt - losses - export of every area in the area summary is the sum of the balances of its buses, and the areas add up to the system.", "quantifier": "every case without isolated buses, every operating point, every assignment of areas, every option", "why_tests_cant": "printed totals are computed by different code (from impedances and voltages) than the flows in the tables; agreement for all networks, taps, chargings and statuses is an identity, not a test", "anchors": ["pypower/printpf.py:printpf", "pypower/runpf.py:runpf", "pypower/runopf.py:runopf"]}
{"id": "C92", "title": "The area summary lists every area once", "statement": "The area summary has one line for every area number that occurs in the bus table.", "quantifier": "every bus table", "why_tests_cant": "the set of areas is found by differences of a sorted vector; boundary cases depend on how many buses carry the first number", "anchors": ["pypower/printpf.py:printpf"]}
{"id": "C93", "title": "Printing does not change the results", "statement": "The tables returned by runpf() and runopf() are those computed, whether or not they are printed.", "quantifier": "every case, AC and DC, every printing option", "why_tests_cant": "printing works on the caller's arrays; a column overwritten for display is noticed only if that column is compared for that option", "anchors": ["pypower/printpf.py:printpf", "pypower/runpf.py:runpf", "pypower/runopf.py:runopf"]}
{"id": "C94", "title": "The constraint sections list the binding limits", "statement": "After an optimal power flow, a limit option of 1 lists exactly the buses, generators or branches with a binding limit or a shadow price, 2 lists all, 0 none.", "quantifier": "every result table, tolerance and option", "why_tests_cant": "conditions combine comparisons and bit operators whose precedence matters only for some combinations of options and data", "anchors": ["pypower/printpf.py:printpf"]}
{"id": "C95", "title": "runopf() returns its results whatever they are", "statement": "Printing the results of an optimal power flow does not raise, and every section asked for is printed.", "quantifier": "every result table with proper bus references, every option", "why_tests_cant": "depends on which limits are binding at the optimum", "anchors": ["pypower/printpf.py:printpf", "pypower/runopf.py:runopf"]}
{"id": "C96", "title": "A successful DC OPF returns the cheapest dispatch", "statement": "When a DC optimal power flow on a case with convex generator costs reports success, the reported objective is the cost of the returned dispatch (an upper bound of it up to the constraint tolerance for piecewise linear costs), and no other dispatch of the same system that balances every bus and respects all generator, branch and angle limits costs less, up to a gap made of the solver's tolerances, the reported multipliers and the distance between the two dispatches; angle differences respect their limits.", "quantifier": "every well-formed case in its own numbering, every convex cost table (quadratic and piecewise linear), every angle-limit table, every solver and option, every other dispatch", "why_tests_cant": "optimality over all feasible dispatches is not observable from a run; it also depends on renumbering, ordering and scaling of costs together", "anchors": ["pypower/opf.py:opf", "pypower/opf_setup.py:opf_setup", "pypower/opf_execute.py:opf_execute", "pypower/dcopf_solver.py:dcopf_solver", "pypower/makeAang.py:makeAang", "pypower/makeAy.py:makeAy"]}
{"id": "C97", "title": "At the returned prices no generator gains by producing otherwise", "statement": "After a successful DC optimal power flow, for every in-service generator the operating cost minus LAM_P of its bus times its output is, at the returned PG, within the solver's tolerances of the least over all outputs between PMIN and PMAX; for polynomial and for piecewise linear costs.", "quantifier": "every case with convex costs, every option, every solver result that the code accepts as converged", "why_tests_cant": "prices are scaled and signed in several places (per unit, cost multiplier, sign of the balance); a market-clearing property quantifies over all outputs", "anchors": ["pypower/opf.py:opf", "pypower/dcopf_solver.py:dcopf_solver", "pypower/makeAy.py:makeAy", "pypower/opf_execute.py:opf_execute"]}
{"id": "C98", "title": "A shadow price is reported only on a limit that binds", "statement": "In the tables returned by a successful DC optimal power flow, the multipliers of generator limits, flow limits and angle limits of in-service equipment are nonnegative, are zero where there is no limit, and times the distance to the limit are zero within the solver's tolerances.", "quantifier": "every case with convex costs, every option, every solver result that the code accepts as converged", "why_tests_cant": "a column left over from the input or a swapped pair of columns shows only when the input carries values or the limit binds", "anchors": ["pypower/opf_execute.py:opf_execute", "pypower/dcopf_solver.py:dcopf_solver", "pypower/makeAang.py:makeAang"]}
{"id": "C99", "title": "Prices differ between buses only because limits bind", "statement": "After a successful DC optimal power flow, at every bus in service other than the reference the susceptance-weighted differences of LAM_P along the branches plus the shadow prices of their flow limits (MU_SF - MU_ST) and angle limits (MU_ANGMAX - MU_ANGMIN, per degree) cancel within the solver's tolerances; without binding flow and angle limits all prices of an island are equal within them.", "quantifier": "every case with convex costs, every option, every solver result that the code accepts as converged", "why_tests_cant": "signs and units of four kinds of multipliers must fit together; on a test case without congestion any wrong sign or factor passes", "anchors": ["pypower/dcopf_solver.py:dcopf_solver", "pypower/opf_execute.py:opf_execute", "pypower/makeAang.py:makeAang", "pypower/opf.py:opf"]}
{"id": "C100", "title": "The ways to call opf() mean the same problem", "statement": "Every documented argument list of opf() -- case, dictionary or tables, with options, user function, linear constraints, generalized cost, user variables -- poses the problem of the full argument list with the remaining arguments at their defaults; arguments take precedence over what the case holds, the case fills in what is not given, and case fields that opf() does not interpret are kept.", "quantifier": "every argument list, every case dictionary", "why_tests_cant": "seven argument orders for two kinds of calls are unpacked by position; each combination of given, empty and missing data takes another path", "anchors": ["pypower/opf_args.py:opf_args", "pypower/opf_args.py:opf_args2"]}
{"id": "C101", "title": "Nested case fields survive the conversion to internal numbering and back", "statement": "Converting fields of a case -- also fields inside fields -- with e2i_field() reorders them like the table they belong to and saves the original under the same name in ppc['order']['ext'], without touching anything else; i2e_field() puts the entries back on the rows of their equipment and keeps the saved values elsewhere; without changes in between the field is as before.", "quantifier": "every well-formed case, any number of fields in any nesting, any data of the right length", "why_tests_cant": "which dictionaries exist already depends on the calls made before; a test with one field does not see what the second or a deeper one does", "anchors": ["pypower/e2i_field.py:e2i_field", "pypower/i2e_field.py:i2e_field", "pypower/toggle_reserves.py:userfcn_reserves_ext2int"]}
{"id": "C102", "title": "A continuation power flow returns power flow solutions between the two cases", "statement": "When runcpf() between a base and a target case on the same network reports success, the returned tables are the target case with demand and scheduled outputs on the straight line between base and target at the last reported lambda, balanced at every bus within the tolerance, with the set points of the base case and branch flows that obey the branch model; every corrected point of the reported curve is such a solution at its own lambda, its voltages standing in the rows of the caller's buses (NaN at isolated ones); the first point is the base case at lambda 0 and max_lam is the largest lambda.", "quantifier": "every two well-formed cases that differ in loading only, in any numbering, every option, every linear solver", "why_tests_cant": "two conversions to internal numbering, a trace and a conversion back must fit together; a test looks at one pair of cases and a few points", "anchors": ["pypower/runcpf.py:runcpf", "pypower/cpf_corrector.py:cpf_corrector", "pypower/pfsoln.py:pfsoln", "pypower/i2e_data.py:i2e_data"]}
{"id": "C103", "title": "The printed counts, capacities, extremes and generator lines are those of the tables", "statement": "Every count (buses, generators, committed, fixed and dispatchable loads, shunts, branches, transformers, ties) and every capacity or total of the system summary and of each area line is the one of the printed tables; the printed minima and maxima are attained first at the bus or branch shown; the area lines add up to the system summary; the generator and dispatchable load sections have one line per unit in service, with its output and the prices at its bus; OUT_ALL overrides the other options as documented.", "quantifier": "every result table in any numbering, every area assignment, every option", "why_tests_cant": "some forty figures are computed by separate selections of rows; a test on one case in which most selections coincide sees few of them", "anchors": ["pypower/printpf.py:printpf", "pypower/isload.py:isload"]}
{"id": "C104", "title": "IPOPT is served the values and all derivatives of the optimal power flow", "statement": "The callbacks that ipoptopf_solver() hands to IPOPT return, at every point, the mismatches, flow limits and linear constraints in one fixed order; the Jacobian entries stored at the positions fixed beforehand are all first derivatives, and the Hessian entries are all second derivatives of the Lagrangian: no derivative falls outside the positions.", "quantifier": "every case, every point, every multiplier vector, every flow limit option", "why_tests_cant": "the positions of entries are fixed once from the topology and the starting point; entries missing elsewhere only slow down or mislead the search", "anchors": ["pypower/ipoptopf_solver.py:eval_g", "pypower/ipoptopf_solver.py:eval_jac_g", "pypower/ipoptopf_solver.py:eval_h", "pypower/ipoptopf_solver.py:ipoptopf_solver"]}
{"id": "C105", "title": "A successful optimal power flow by IPOPT reports a feasible point with market prices", "statement": "When IPOPT, which is trusted to report success only near points that satisfy the optimality conditions of the problem it was handed, succeeds, the tables returned by ipoptopf_solver() balance at every bus, respect all limits and further constraints in MW, MVAr and degrees, and their prices and shadow prices satisfy the optimality conditions in money per MW; flows and cost are those of the reported voltages and dispatch, success or not.", "quantifier": "every case, every set of further variables and linear constraints, every sound IPOPT, every starting point", "why_tests_cant": "the answer of an external solver is cut into pieces at computed offsets and rescaled; one wrong offset gives plausible prices", "anchors": ["pypower/ipoptopf_solver.py:ipoptopf_solver"]}
{"id": "C106", "title": "A DC optimal power flow with reserves returns reserves that can be held and meet the requirements", "statement": "When runopf_w_res() with PF_DC succeeds, results['reserves']['R'] has one entry per row of the caller's generator table, zero except for generators in service that belong to a zone; each entry is not negative, within RAMP_10 and the offered quantity, and output plus reserve is within PMAX; every zone has the reserves it requires; totalcost is the cost of these reserves at the offered prices; Rmin and Rmax are the limits used. The tables are those of a DC optimal power flow.", "quantifier": "every well-formed case in any numbering with any generators out of service, every choice of overlapping zones, costs and quantities per generator or per providing generator, every linear solver", "why_tests_cant": "the reserve data pass through three numberings (providers, internal generators, caller's rows) and come back; a test with all generators in service and in order sees none of it", "anchors": ["pypower/runopf_w_res.py:runopf_w_res", "pypower/toggle_reserves.py:userfcn_reserves_ext2int", "pypower/toggle_reserves.py:userfcn_reserves_formulation", "pypower/toggle_reserves.py:userfcn_reserves_int2ext"]}
{"id": "C107", "title": "Reserve prices and bus prices together support the dispatch and the reserves", "statement": "After a successful runopf_w_res() with PF_DC every reserve price and shadow price is not negative and zero for generators without reserves; the cost of a MW of reserve plus the shadow prices of its limits and of the capacity is what the zones pay for it; shadow prices are paid at binding limits only; paid the price of its bus for energy and the price of its zones for reserve, no generator in service earns more with another output and another reserve within its limits, up to terms that vanish with the tolerances.", "quantifier": "every well-formed case with convex costs in any numbering, every choice of zones, every linear solver", "why_tests_cant": "the opportunity cost of capacity held back links two markets; a test compares numbers of one solved case with stored ones", "anchors": ["pypower/toggle_reserves.py:userfcn_reserves_int2ext", "pypower/opf_execute.py:opf_execute", "pypower/dcopf_solver.py:dcopf_solver"]}
{"id": "C108", "title": "A DC optimal power flow with reserves co-optimises energy and reserves", "statement": "When runopf_w_res() with PF_DC succeeds, the reported objective is the cost of the returned dispatch plus the cost of the returned reserves, and no other dispatch of the system within all its limits together with any reserves that can be held beside it and meet the requirements costs less, up to a gap that vanishes with the tolerances.", "quantifier": "every well-formed case with convex costs in any numbering, every choice of zones, every feasible alternative, every linear solver", "why_tests_cant": "optimality against all alternatives cannot be sampled; a sequential choice of dispatch and reserves passes tests on slack systems", "anchors": ["pypower/runopf_w_res.py:runopf_w_res", "pypower/toggle_reserves.py:userfcn_reserves_formulation", "pypower/opf_model.py:build_cost_params", "pypower/dcopf_solver.py:dcopf_solver"]}
{"id": "C109", "title": "Linear constraints and costs of the user hold for the caller's buses and generators", "statement": "When a DC optimal power flow is given additional linear constraints l <= A x <= u, user variables z with bounds and generalized costs (N, fparm, H, Cw), and succeeds, the returned voltage angles, outputs and user variables satisfy the constraints with the columns of A meaning the caller's bus and generator rows followed by the user variables, the user variables are within their bounds, the reported objective includes the documented user cost, and the multipliers reported for the constraints and bounds are not negative and zero where there is slack.", "quantifier": "every well-formed case in any numbering with any equipment out of service, every user matrix, sparse or dense, every linear solver", "why_tests_cant": "the columns of the matrices pass through the conversion to internal numbering; on a case with all equipment in service and generators in the order of their buses a conversion that does nothing is right", "anchors": ["pypower/opf.py:opf", "pypower/opf_setup.py:opf_setup", "pypower/ext2int.py:ext2int", "pypower/opf_model.py:opf_model.build_cost_params", "pypower/dcopf_solver.py:dcopf_solver", "pypower/opf_execute.py:opf_execute"]}
{"id": "C110", "title": "A DC optimal power flow with the user's constraints and costs costs the least", "statement": "After a successful DC optimal power flow with user constraints, variables and costs no dispatch that balances the network, meets all limits and the user's constraints on the caller's buses and generators has a lower sum of generation cost and user cost than the reported objective, up to a gap that vanishes with the tolerances.", "quantifier": "every well-formed case with convex costs in any numbering, every user matrix and convex user cost, every linear solver", "why_tests_cant": "a constraint applied to the wrong generator gives a dispatch that is optimal for another problem and looks plausible", "anchors": ["pypower/opf.py:opf", "pypower/opf_setup.py:opf_setup", "pypower/ext2int.py:ext2int", "pypower/dcopf_solver.py:dcopf_solver"]}
{"id": "C111", "title": "Results are found under the names of the blocks they belong to", "statement": "After an optimal power flow, results['var'], results['lin'], results['nln'] and results['cost'] have exactly one entry for each non-empty named set of variables, linear constraints, nonlinear constraints and costs of the model, standard or added by the user or a callback; the entry has one element per member of that set; the values respect the bounds given for that set and, combined as in its add_constraints call, the constraint's limits; shadow prices are those of that set; the cost is that of the named values. OPF_ALG selects the documented solver.", "quantifier": "every sequence of add_vars, add_constraints, add_costs calls, AC and DC, every solver outcome, every algorithm code", "why_tests_cant": "the blocks and their number are up to the user; with a single cost set the loop over the sets is exercised once", "anchors": ["pypower/opf_execute.py:opf_execute", "pypower/opf_model.py:opf_model.get_cost_params", "pypower/opf_model.py:opf_model.compute_cost"]}
{"id": "C112", "title": "Interface flow limits hold in the returned tables and cost no more than they must", "statement": "After a DC optimal power flow with interface flow limits switched on, every listed interface carries, summed over its branches with their signs in the returned branch table, a flow between its limits up to the tolerance; if.P reports these flows; if.mu.l and if.mu.u are not negative and zero unless the flow is at the limit; and no dispatch that meets all limits including those of the interfaces costs less.", "quantifier": "every well-formed case in any numbering with any branches out of service, every map and limits, convex costs, every linear solver", "why_tests_cant": "the branch numbers of the map are converted twice on the way; which branch or limit is dropped depends on the order of the tables and on what is in service", "anchors": ["pypower/toggle_iflims.py:userfcn_iflims_ext2int", "pypower/toggle_iflims.py:userfcn_iflims_formulation", "pypower/toggle_iflims.py:userfcn_iflims_int2ext", "pypower/opf.py:opf"]}
{"id": "C113", "title": "A power flow of tables written with whole numbers returns the same results as the same numbers written as decimals", "statement": "runpf() and rundcpf() of a case whose generator table is written with whole numbers only (such as the shipped case9 and case9Q) raise, fail or succeed exactly as for the same table written with decimal points, and return the same voltages, flows and generator outputs; in particular generation, demand, shunts and flows balance at every bus as for a table of decimals.", "quantifier": "every well-formed case in any numbering, every generator table of whole numbers, DC and every AC algorithm, every linear solver", "why_tests_cant": "tests compare runs with stored results of the same code; whether fractions are dropped depends on how a table happens to be written", "anchors": ["pypower/runpf.py:runpf", "pypower/pfsoln.py:pfsoln", "pypower/case9.py:case9"]}
{"id": "C114", "title": "A cost table of whole numbers means the costs it shows", "statement": "A DC optimal power flow run on a case whose gencost table is an integer array (a table written with whole numbers only) minimises and reports the costs shown in the table: one-segment piecewise linear costs are replaced by the lines through their two points, as for the same table of floats. In particular the reported objective is the cost of the returned dispatch and at most the cost of any dispatch within the limits, up to the tolerances of the solver.", "quantifier": "for every well-formed case with convex costs, every linear solver, every tolerance and every other dispatch within all limits", "why_tests_cant": "whether a fraction is lost depends on the element type numpy gives a table and on slopes that are not whole; a test on a shipped case has whole slopes and shows nothing", "anchors": ["pypower/opf_setup.py:94-106", "pypower/opf.py:155-163", "pypower/dcopf_solver.py:91-172", "pypower/case30pwl.py"]}
{"id": "C115", "title": "A case saved to a Python file is the same case when it is loaded", "statement": "savecase(fname, ppc) of a valid case returns the name of the file it wrote and touches no other file; loadcase of that name, or of the name without extension when there is no .mat file beside it, returns the case: the same tables with every number the one saved, or the nearest one with the digits printed (nine significant digits, four decimals for multipliers and flows, whole numbers for numbers of buses, types and statuses); numbers with no more digits come back exactly; and saving and loading the result once more changes nothing.", "quantifier": "every case: any number of buses, generators, branches, areas, costs and user data, every file name, comment and content of the file system", "why_tests_cant": "the text of the file depends on every number of the case; which numbers, names and optional tables give a file that Python cannot read is not seen on the shipped cases", "anchors": ["pypower/savecase.py:savecase", "pypower/loadcase.py:loadcase"]}
{"id": "C116", "title": "A loaded case is the caller's own, and a case that cannot be loaded is said by its code", "statement": "loadcase(x) of a dictionary changes nothing the caller has and returns a case that shares no object with it, however nested, so that the caller may change either; the result has the same entries with equal contents, except the generator and branch tables brought to version 2 and the version, which is '2' whatever the dictionary said. Loading the result again gives the same values. Asked for separate tables it returns the entries of that case in the documented order. A case file whose function keeps its dictionary is not handed out either. The exit codes are: 1 for an argument that is neither string nor dict, 2 for a name without extension that is no file, 3 and 4 for .mat and .py files that do not exist, 5 for a file with a syntax error or without all matrices", "quantifier": "every memory content, every dictionary with any nesting, sharing and cycles, every file system, every case file (any result, any exception, any change of memory when it is read)", "why_tests_cant": "whether two cases share an object is seen only when one of them is changed; which exceptions a case file can raise is not enumerable", "anchors": ["pypower/loadcase.py:loadcase", "pypower/runpf.py:85-88"]}
{"id": "C117", "title": "A run leaves the case it was given as it was", "statement": "runpf, rundcpf, runcpf, opf, runopf, uopf and runuopf of a dictionary change neither the dictionary nor any array or dictionary in it, whatever happens during the run, and the results share no object with it: the caller can run further studies with the same case, and one run does not influence the next. In particular constraints, costs and user functions given as arguments of one call apply to that call only, and units switched off while a commitment is searched are in service again in the caller's case", "quantifier": "every memory content, every dictionary with any nesting and sharing (also one dictionary as both cases of runcpf), every sequence of reads, writes and copies a run makes with the objects it holds, every optimal power flow inside uopf", "why_tests_cant": "aliasing shows only when a second run is made with the same object, and depends on which of thousands of assignments hit a shared array", "anchors": ["pypower/runpf.py:runpf", "pypower/runcpf.py:runcpf", "pypower/opf.py:opf", "pypower/opf_args.py:opf_args2", "pypower/uopf.py:uopf"]}
{"id": "C118", "title": "A case saved to a MAT file is the same case when it is loaded", "statement": "savecase of a case to a name that ends with .mat, followed at any time by loadcase of the file, gives the same case: the same base, bus, generator, branch, area and cost tables, the same user constraints, costs and bounds in the same shapes, and everything else the caller kept in the dictionary; a case that could be run before can be run afterwards, a result included; saving and loading again changes nothing more; and the caller's dictionary is as it was", "quantifier": "every memory content, every complete case with any entries, every name that resolves to the file, any state of memory when it is loaded", "why_tests_cant": "what is lost depends on which of two dozen optional keys are there together and on the types of their values; tests save the plain case files only", "anchors": ["pypower/savecase.py:savecase", "pypower/loadcase.py:loadcase", "pypower/ext2int.py:ext2int"]}
{"id": "C119", "title": "Cases with reserves, interface limits or DC lines can be printed and saved", "statement": "After toggle_reserves, toggle_iflims or toggle_dcline, results that could be printed without the extension are printed with a section for it: each DC line with its flows and loss and the total loss, the lines at their limits or with a shadow price among the constraints, each provider of reserves with its reserve, price and zones, each zone with the sum of the reserves of its generators, each interface with its flow. This holds for power flows and optimal power flows, with lines in or out of service. After the extension is switched off, printing is as before. A case with the extension can be saved to a Python file.", "quantifier": "every case, every order of switching extensions on and off, every table of lines, limits and reserves, all print options, every user callback that leaves the data of the extensions alone", "why_tests_cant": "the callbacks are only reached with an extension on, output on and at least one row of a kind (out of service, an interface, a power flow); no test prints or saves such a case", "anchors": ["pypower/printpf.py:685-689", "pypower/toggle_dcline.py:userfcn_dcline_printpf", "pypower/toggle_iflims.py:userfcn_iflims_printpf", "pypower/toggle_reserves.py:userfcn_reserves_printpf", "pypower/savecase.py:354-361"]}
{"id": "C120", "title": "A successful AC optimal power flow respects capability curves, power factors and angle limits of the caller's tables", "statement": "After a successful AC optimal power flow, in the caller's own tables: every generator in service with a valid capability curve (columns PC1 to QC2MAX) has its reported output between the two lines of its curve; every dispatchable load in service keeps its power factor (the ratio of its nonzero reactive limit to PMIN), and a load whose two reactive limits are both nonzero is rejected; every branch in service with an angle limit keeps its angle difference within it, unless angle limits are ignored; all up to the termination tolerance. Balance, boxes and ratings hold as without curves, inputs are unchanged. Such cases can be solved: a run with data in range returns.", "quantifier": "every case (any numbering, equipment out of service), every combination of curves, loads and angle limits, every choice of the linear solver and its failures, every iteration count", "why_tests_cant": "needs a run whose optimum lies on a curve, with some generators cut at one corner, at both or at none; the bundled cases have no capability curves and no dispatchable loads with reactive power in AC runs", "anchors": ["pypower/opf_setup.py:163-167,229-231", "pypower/makeApq.py:makeApq", "pypower/makeAvl.py:makeAvl", "pypower/makeAang.py:makeAang", "pypower/opf_execute.py:101-106,136-140", "pypower/update_mupq.py:update_mupq"]}
{"id": "C121", "title": "Prices of an AC optimal power flow with capability curves support its result", "statement": "After a successful AC optimal power flow with capability curves, constant power factors and angle limits, in the caller's tables: every generator in service with a polynomial cost, other than a dispatchable load with reactive power, produces where its marginal cost equals the price LAM_P of its bus less MU_PMAX plus MU_PMIN, and where LAM_Q equals MU_QMAX less MU_QMIN, so that these columns account for its capability curve as well as its box. A dispatchable load with a power factor consumes where the value of one more MW together with its MVAr equals their cost at the two prices. When some curve cuts off a corner, the four multipliers are non-negative and at most one of each pair is nonzero. All up to the gradient tolerance and the dropping of multipliers below 1e-5.", "quantifier": "every case, every combination of curves, loads and angle limits, every polynomial cost table, every choice of the linear solver, every number of iterations", "why_tests_cant": "tests compare optimal values on cases without curves; that translated multipliers still balance the prices needs the optimality conditions of a run with active sloped constraints", "anchors": ["pypower/update_mupq.py:update_mupq", "pypower/opf_execute.py:96-106", "pypower/pipsopf_solver.py:201-237", "pypower/makeApq.py:makeApq", "pypower/makeAvl.py:makeAvl", "pypower/opf_costfcn.py:100-117"]}
{"id": "C122", "title": "The commands pf and opf do what their arguments say", "statement": "For a command line made of documented items in any order and spelling, each option has in the run the value it was last set to and otherwise its default, the function called is the one asked for, and it gets the named case and output files; errors of use end with code 2 before anything is run; the exit code is 0 exactly if the run succeeded, the tests passed or help was asked for. False for options whose default is a text: they cannot be given a text (the command raises an exception). Whatever the arguments, options a command does not offer keep their defaults (opf never runs a DC problem) and options keep the type of their default (pdipm_feastol is always an integer).", "quantifier": "all lists of command-line words, both commands, all ways numerals may be read, all outcomes of the function called", "why_tests_cant": "the command line is an unbounded list of arbitrary words and the repository has no tests of its parsing; that no word can change an option is a statement about all of them", "anchors": ["pypower/main.py:26-194", "pypower/ppoption.py:8-176", "pypower/ppoption.py:214-217"]}
{"id": "C123", "title": "Unit decommitment returns a feasible schedule of the caller's system, no dearer than with all units on", "statement": "runuopf on a well-formed case either raises because the lower limits of the generators exceed the load, or returns the tables of the caller with some units shut down: these were in service with a positive lower limit and are reported with status and outputs zero, every other input (demands, limits, costs, branches) is unchanged.  With the DC or AC optimal power flow a successful result balances every bus and keeps the generators left in service within the caller's limits and branches within their ratings.  The objective counts the generators left in service only, is at most that of the plain optimal power flow and (DC) at most the cost of any feasible schedule with all units on or with the same units off, up to the tolerances; no further single shutdown of a unit at a binding lower limit helps.  The search ends after at most one stage per generator, and with the DC optimal power flow it returns on every case with data in range.  If the plain optimal power flow succeeds so does unit decommitment; if it fails, its meaningless objective still decides which successful trials are passed over.", "quantifier": "for all cases, cost tables, options and linear solvers, whatever sequence of units is shut down", "why_tests_cant": "A test sees a few cases with one or two units to shut down; that the tables handed from stage to stage stay those of the caller, that the last result is feasible and that nothing cheaper with all units on exists concerns all cases and all sequences of stages.", "anchors": ["pypower/uopf.py:25-130", "pypower/runuopf.py", "pypower/opf.py:149-196", "pypower/isload.py:24"]}
{"id": "C124", "title": "The quadratic programme solver solves the problem it is given, in every documented form", "statement": "qps_pips and qps_pypower (with PIPS) accept min 1/2 x'Hx + c'x, l <= Ax <= u, xmin <= x <= xmax as single arguments or as a dictionary with optional parts left out; success on a convex problem means the returned point meets all bounds and constraints up to the tolerance, the returned objective is the objective there, no point meeting them is cheaper by more than an explicit amount that vanishes with the tolerances, and the multipliers are nonnegative, zero for bounds that are not given and balance the gradient; the form does not matter, and solving the same dictionary again gives the same result.  False in four places: with H not symmetric success may be reported far from the minimum of a convex objective; a linear programme with bounds only is refused; the options for PIPS are ignored for a dictionary without H; max_it zero does not mean the default.", "quantifier": "all problems of all sizes with sensible bounds, all forms of call, all options and linear solvers", "why_tests_cant": "tests solve a handful of fixed problems; which combinations of missing parts are accepted, and that the point returned cannot be beaten by any feasible point, are statements about all problems", "anchors": ["pypower/qps_pips.py:114-175", "pypower/qps_pypower.py:118-207", "pypower/pips.py:168-219"]}
{"id": "C125", "title": "Optimal power flows do not depend on the operating point stored in the case", "statement": "Take two cases of the same system: equal numbers, types, demands, limits, impedances, statuses, costs, user constraints and reference angles, but other stored voltages, outputs, voltage set points, flows and multipliers. A DC or an AC optimal power flow with PIPS raises on the one iff it raises on the other, and if they return, the outcome, the cost and every result column of the equipment in service agree (DC: but those a DC run leaves alone). In particular running again on the returned tables, with the reference angles put back, gives the same results: an earlier solution is not used as a starting point. The starting point is strictly between the bounds wherever these leave room. PDIPM_FEASTOL = 0 means OPF_VIOLATION, which has no effect otherwise; OPF_ALG and OPF_FLOW_LIM have no effect on DC runs nor OPF_ALG_DC on AC runs. Without a reference bus in service no run completes; with one, and PIPS chosen, DC runs on proper input complete; if they succeed, the cost is least among feasible dispatches up to amounts made of the tolerances the options name.", "quantifier": "all well-formed cases, all pairs of operating points, all options, whatever the linear solver inside PIPS returns", "why_tests_cant": "a run is compared with runs from infinitely many other stored operating points; equality must hold for the failing runs too", "anchors": ["pypower/dcopf_solver.py:174-216", "pypower/pipsopf_solver.py:69-110", "pypower/opf_setup.py:117-135", "pypower/opf.py:149-196", "pypower/ppoption.py:72-111"]}
{"id": "C126", "title": "User-defined constraints and variables hold after an AC optimal power flow", "statement": "runopf on a case with user constraints l <= A [Va; Vm; Pg; Qg; z] <= u and user variables zl <= z <= zu: after success every user constraint holds for the reported angles, magnitudes, outputs and reactive outputs and the reported z, every z is within its bounds, both up to the tolerance; absent bounds do not bind; the reported multipliers are non-negative, zero for absent bounds, and small times the unused margin. Everything else guaranteed of AC optimal power flows (balance, limits, curves) still holds. A dense A makes the run raise. The columns refer to the rows of the caller's tables. The last is false of the code for a sparse A when something is out of service or generators are not listed in the order of their buses: then columns are applied to other rows.", "quantifier": "all well-formed cases, all user matrices, bounds and numbers of user variables, all options, whatever the linear solver inside PIPS returns", "why_tests_cant": "user matrices are arbitrary; a test fixes one matrix and cannot tell which rows its columns are applied to in every arrangement of the tables", "anchors": ["pypower/opf_setup.py:53-91,187-198,239-245", "pypower/opf_execute.py:146-164", "pypower/pipsopf_solver.py:201-240", "pypower/ext2int.py", "pypower/opf.py:149-191"]}
{"id": "C127", "title": "The AC optimal power flow cuts off no operating point", "statement": "Every operating point of the system that balances active and reactive power at every bus with the flows of the standard branch model, keeps voltages, outputs, capability curves, constant power factors, branch ratings (by apparent power, active power or current) and angle limits, and has the reference angles of the case, is a solution runopf can return: started there it succeeds, with any tolerance above rounding, and reports exactly that point in the caller's tables. So no such dispatch is excluded by numbering, units, the order of the tables, normalised rows or equipment out of service. With user constraints and variables the same holds for the points that meet those as well.", "quantifier": "all well-formed cases in range with at least one limited branch (and the shape of capability curves for which runs complete), all operating points, all tolerances above 2^-52, whatever the linear solver inside PIPS returns", "why_tests_cant": "the feasible region is a continuum cut out by nonconvex equations; a test compares one optimum and does not notice that other points have been excluded", "anchors": ["pypower/opf_setup.py:117-245", "pypower/makeApq.py", "pypower/makeAvl.py", "pypower/makeAang.py", "pypower/opf_consfcn.py", "pypower/pipsopf_solver.py:69-240", "pypower/opf.py:149-196"]}
{"id": "C128", "title": "Bus prices and shadow prices are marginal costs", "statement": "After a successful DC optimal power flow (no user constraints, variables or costs) the prices in the returned tables say what changes cost: for every other demand, output limits and branch ratings of the same system, no dispatch of the changed system is cheaper than the reported objective plus each MW of additional demand at LAM_P of its bus, plus each MW by which a lower (upper) output limit is raised (lowered) at MU_PMIN (MU_PMAX), plus each MW by which a rating is lowered at MU_SF + MU_ST; up to a gap that vanishes with the tolerances, and up to 1e-5 scaled cost per p.u. of changed limits because smaller shadow prices are reported as zero. In particular LAM_P is at most the cost of serving one more MW and at least the saving of serving one less.", "quantifier": "all well-formed cases with convex costs, all changes of demand, limits and ratings of any size, all dispatches of the changed system, all options, whatever the linear solver inside PIPS returns", "why_tests_cant": "a statement about the optimal values of a continuum of neighbouring problems; sign, scaling by baseMVA and row of every multiplier matter, and a test compares a few recorded numbers", "anchors": ["pypower/dcopf_solver.py:230-275", "pypower/pips.py:600-632", "pypower/opf_setup.py:117-245", "pypower/opf.py:149-196"]}
{"id": "C129", "title": "The prices of a DC optimal power flow collect at least what they pay", "statement": "After a successful DC optimal power flow (no user constraints, variables or costs) the payments of demand and shunts at LAM_P less the payments to generators at LAM_P equal what the flow limits, angle limits and phase shifters earn at their returned shadow prices (MU_SF times PF plus MU_ST times PT, and so on), and are at least the shadow prices times the limits; so without phase shifters, with ratings that are not negative and angle limits on either side of zero, consumption pays at least what generation is paid. Up to terms that vanish with the solver's tolerances.", "quantifier": "all well-formed cases with convex costs whose references share one returned angle (e.g. one reference), all options, whatever the linear solver inside PIPS returns", "why_tests_cant": "one wrong sign, row or scaling of any of six multiplier columns breaks an identity over the whole network; tests compare individual recorded multipliers, if any", "anchors": ["pypower/dcopf_solver.py:230-275", "pypower/opf_setup.py:117-245", "pypower/makeBdc.py", "pypower/opf_execute.py:146-164"]}
{"id": "C130", "title": "Running a power flow again on its own results changes nothing", "statement": "If runpf (AC, any of the algorithms, or DC) succeeds and the returned bus, gen and branch tables are given to runpf again with the same options, the second run also reports success and returns exactly the same tables, even if no iteration is allowed; for AC the voltage set points of generators in service are positive and none of them is at a bus declared PQ.", "quantifier": "all well-formed cases (any numbering, order, equipment out of service), all algorithms, all iteration limits of the second run, whatever the linear solver returns", "why_tests_cant": "the round trip passes through renumbering, sorting of generators, the starting point (magnitudes scaled to VG, degrees to radians), the injections, the mismatch, the sharing of Q and the update of the slack generator; tests start from the stored cases and never feed results back", "anchors": ["pypower/runpf.py:97-330", "pypower/pfsoln.py", "pypower/int2ext.py", "pypower/ext2int.py", "pypower/newtonpf.py:40-75", "pypower/makeSbus.py"]}
{"id": "C131", "title": "Bus numbers are only names", "statement": "Replacing the bus numbers of a case by other distinct numbers, consistently in the bus, gen, branch and areas tables (rows in the same order), changes nothing in the results of runpf (AC, any algorithm, or DC) and runopf/rundcopf but these numbers: the call raises exactly when it raised before, success and objective are the same, and every row of every table has the same values.", "quantifier": "all well-formed cases with any equipment out of service, all replacements by distinct numbers whether or not they keep the order of size, all options, whatever the linear solver returns", "why_tests_cant": "a relation between two runs over all numberings; tests use the numbering of the stored cases, most of them consecutive already, so a lookup by external instead of internal number or a dependence on gaps or order is not seen", "anchors": ["pypower/ext2int.py:56-197", "pypower/int2ext.py:43-110", "pypower/runpf.py:97-305", "pypower/opf.py:149-196", "pypower/bustypes.py"]}
{"id": "C132", "title": "The order of the rows does not matter to a DC power flow", "statement": "Two cases with the same bus, gen and branch rows in different orders have the same DC power flow: rundcpf succeeds for both and returns the same bus rows and the same branch rows, each in the order of its case, and the same generation of each bus; where no bus has two generators in service also the same generator rows. This needs a REF bus with a generator in service; if there is none the first PV bus of the table becomes the slack bus, and there are cases whose results then differ.", "quantifier": "all well-formed cases joined to their REF buses by branches of positive reactance, all permutations of the rows of the three tables, any equipment out of service, any two linear solvers that solve regular systems", "why_tests_cant": "a relation between two runs over all orders of the tables; the renumbering, the sorting of generators, the choice of the slack generator and the size and order of all matrices change with the order, and tests have one order per case", "anchors": ["pypower/ext2int.py:56-197", "pypower/bustypes.py", "pypower/dcpf.py", "pypower/makeBdc.py", "pypower/runpf.py:108-145", "pypower/int2ext.py:43-110"]}
{"id": "C133", "title": "DC power flows superpose", "statement": "On one network, if the demands, shunts, outputs of generators in service and slack angles of a case are a times those of a second case plus b times those of a third, then the DC power flows of all three succeed and the returned angles, branch flows and generation at each bus of the first are a times those of the second plus b times those of the third. a + b must be 1 unless no phase shifter is in service, in which case any factors will do (so twice the injections give twice the flows).", "quantifier": "all well-formed cases joined to their slack buses by branches of positive reactance, all real factors, any equipment out of service, any linear solver that solves regular systems", "why_tests_cant": "a relation between three runs over all injections and factors; users rely on it for screening by distribution factors, and tests compare the flows of one case", "anchors": ["pypower/runpf.py:108-145", "pypower/dcpf.py", "pypower/makeBdc.py", "pypower/makeSbus.py", "pypower/int2ext.py:43-110"]}
{"id": "C134", "title": "Only net injections matter to a DC power flow", "statement": "Two cases on the same network, with the same slack buses at the same angles and the same net injection (outputs of generators in service less demand and shunt) at every other bus, have the same DC power flow: both runs succeed, the returned angles and branch flows are equal row by row, and so is the net injection left to the slack buses. So a demand may be written as a generator of negative output, several generators at a bus may be one, generators out of service may be deleted, and generators may be listed in any order.", "quantifier": "all well-formed cases joined to their slack buses by branches of positive reactance, all generator tables of any length, any equipment out of service, any two linear solvers that solve regular systems", "why_tests_cant": "a relation between two runs over all ways of composing an injection; tests run the stored cases with one representation each", "anchors": ["pypower/makeSbus.py:23-47", "pypower/runpf.py:108-145", "pypower/dcpf.py", "pypower/ext2int.py:119-146", "pypower/bustypes.py"]}
{"id": "C135", "title": "Equipment out of service might as well not be in the tables", "statement": "Deleting from a case every bus of type 4, every generator and branch that is switched off or connected to such a bus, and the cost rows of those generators, changes no result: AC and DC power flows by every algorithm and AC and DC optimal power flows raise, fail or succeed exactly as on the full case, with the same objective, and return for the equipment in service the very rows the full case returns, in the same order.", "quantifier": "all well-formed cases with any equipment out of service in any rows, all options, algorithms, solvers and start points, generator costs with one or two rows per generator", "why_tests_cant": "a relation between two runs over all patterns of outages; the index bookkeeping that makes it true (removal, sorting, renumbering, restoring) fails for particular patterns only, which tests of stored cases do not contain", "anchors": ["pypower/ext2int.py:99-193", "pypower/int2ext.py:43-110", "pypower/runpf.py:92-330", "pypower/opf.py:196-260", "pypower/e2i_data.py"]}
{"id": "C136", "title": "The direction in which a branch is entered is only a naming of its ends", "statement": "Entering any branches in the opposite direction (ends exchanged, phase shift negated, and for a transformer the ratio inverted with the impedance referred to the other side) changes no result of a power flow: AC power flows by Newton's method and Gauss-Seidel and DC power flows raise, diverge or succeed as before, return the same bus and generator rows, and the power at each end of each branch is the same, so that PF, QF and PT, QT of a turned branch are exchanged. Fast decoupled power flows have it when the turned branches have ratio 1 (lines, phase shifters), since their matrix B' ignores ratios.", "quantifier": "all well-formed cases, any set of branches turned, any equipment out of service, all options, tolerances, reactive limits and any linear solver", "why_tests_cant": "a relation between two runs over all sets of branches; an error in the sign of a shift, in the side a ratio or a charging is put to, or in one of the four columns of flows shows only on branches with a ratio or a shift, and tests hold one direction per branch", "anchors": ["pypower/makeYbus.py:50-80", "pypower/makeB.py:31-48", "pypower/makeBdc.py:45-75", "pypower/pfsoln.py:84-97", "pypower/runpf.py:108-305"]}
{"id": "C137", "title": "The MVA base is only a unit", "statement": "Stating the same case on another MVA base (baseMVA times k, branch resistances and reactances times k, line charging divided by k, and PF_TOL, which is in per unit of power, divided by k) changes no result of a power flow: by every AC algorithm and in the DC power flow the run raises, diverges or succeeds as before, in as many iterations, and returns the same bus rows, generator rows and branch flows in MW and MVAr.", "quantifier": "all well-formed cases, all k > 0, any equipment out of service, all options, reactive limits enforced or not, and any linear solver that returns the same for a system with all equations multiplied by a number", "why_tests_cant": "a relation between two runs over all bases; a missing or doubled division by baseMVA cancels on the base of the stored case (100 MVA in all of them) or shows only in one column of the results", "anchors": ["pypower/makeYbus.py:44-84", "pypower/makeSbus.py:23-47", "pypower/makeB.py", "pypower/makeBdc.py", "pypower/newtonpf.py", "pypower/fdpf.py", "pypower/gausspf.py", "pypower/pfsoln.py", "pypower/runpf.py:108-305"]}
{"id": "C138", "title": "Only differences of voltage angles matter", "statement": "Adding the same angle to the voltage angles of all buses of a case changes no power, voltage magnitude or outcome of a power flow: by every AC algorithm and in the DC power flow the run raises, diverges or succeeds as before, the returned generator and branch rows are the same, and so are the bus rows but for the angles, which are larger by that angle (AC: up to whole turns, since angles are returned between -180 and 180 degrees, and except at buses with zero voltage, which have no angle).", "quantifier": "all well-formed cases, all real angles, any equipment out of service, all options, reactive limits enforced or not; AC: any linear solver that does not solve square systems with a column of zeros; DC: cases joined to their slack buses by branches of positive reactance and any solver of regular systems", "why_tests_cant": "a relation between two runs over all angles, including those that carry a bus across 180 degrees; a wrong formula for the start, the update of angles or a derivative can be right when the slack angle is 0, as it is in the stored cases", "anchors": ["pypower/runpf.py:108-305", "pypower/newtonpf.py", "pypower/fdpf.py", "pypower/gausspf.py", "pypower/dSbus_dV.py", "pypower/dcpf.py", "pypower/makeBdc.py", "pypower/pfsoln.py"]}
{"id": "C139", "title": "Stored results that are not the start of an AC power flow do not matter", "statement": "An AC power flow does not depend on stored results that it does not start from: the voltage magnitudes (as long as they are positive) of buses held at a generator set point, the reactive outputs of the generators there, the active output of a generator that is alone in service at a slack bus, all outputs of generators out of service and all branch flows. Two cases that differ only in these raise, diverge or succeed alike, by every algorithm, and return the same bus, generator and branch rows.", "quantifier": "all pairs of well-formed cases that differ only in such entries, any equipment out of service, all options, reactive limits enforced or not, and any linear solver", "why_tests_cant": "a relation between two runs over all stale values; the stored cases contain consistent results, so that a use of a stale value does not show", "anchors": ["pypower/runpf.py:146-305", "pypower/makeSbus.py:23-47", "pypower/newtonpf.py", "pypower/fdpf.py", "pypower/gausspf.py", "pypower/pfsoln.py:33-97"]}
{"id": "C140", "title": "AC power flows depend on net injections only", "statement": "An AC power flow without enforcement of reactive limits depends on loads and generation only through their difference at each bus: moving any amounts of load and of generator output together at a bus (load met on the spot), and any change of active load or output at slack buses and of reactive load or output at buses held at a set point, changes no voltage and no flow. By every algorithm the run raises, diverges or succeeds as before and returns the same bus rows but for the loads, and the same branch rows.", "quantifier": "all pairs of well-formed cases that differ only in loads, generator outputs and stored flows and have the same net injections where they count, any equipment out of service, all algorithms, tolerances and iteration limits, and any linear solver", "why_tests_cant": "a relation between two runs over all splits of an injection between generators and load; a generator counted twice, one out of service that is counted, or a load column read in the wrong place shows only for particular splits", "anchors": ["pypower/makeSbus.py:23-47", "pypower/runpf.py:146-305", "pypower/newtonpf.py", "pypower/fdpf.py", "pypower/gausspf.py", "pypower/pfsoln.py:33-97"]}
{"id": "C141", "title": "Power flows ignore limits, ratings, prices, costs and user constraints", "statement": "What only an optimal power flow uses does not matter to a power flow: with other voltage limits, limits of active power, branch ratings, prices and multipliers stored from an earlier optimal power flow, further columns (areas, zones, base voltages, capability curves, ramp rates, angle limits), cost tables, user matrices A and N and area tables, AC power flows by every algorithm and DC power flows raise, diverge or succeed as before, and the returned rows differ only in these columns, each row keeping its own.", "quantifier": "all pairs of well-formed cases that differ only in such entries, any equipment out of service, all options, reactive limits enforced or not, and any linear solver", "why_tests_cant": "a relation between two runs over all values of unused entries; a column index that is off by one reads a limit or a rating instead of data, which shows only for particular values, and the conversion of cost tables and user matrices runs in every power flow too", "anchors": ["pypower/runpf.py:92-330", "pypower/ext2int.py:99-193", "pypower/int2ext.py:43-110", "pypower/idx_bus.py", "pypower/idx_gen.py", "pypower/idx_brch.py", "pypower/makeSbus.py", "pypower/pfsoln.py"]}
{"id": "C142", "title": "The status of a generator is only on or off", "statement": "In power flows any positive number in the status column of a generator means on and any other number off, and nothing else: two cases that differ only in such numbers (and in what power flows ignore, C141) raise, diverge or succeed alike, by every AC algorithm and in the DC power flow, and return the same rows but for the status numbers, each row keeping its own.", "quantifier": "all pairs of well-formed cases related like this, all options, reactive limits enforced or not, and any linear solver", "why_tests_cant": "a relation between two runs over all status numbers; the stored cases contain 0 and 1 only, so that a status used as a factor or compared with 1 in one of the six places that read it does not show", "anchors": ["pypower/ext2int.py:119-121", "pypower/bustypes.py:33-36", "pypower/makeSbus.py:26", "pypower/runpf.py:102", "pypower/runpf.py:201", "pypower/pfsoln.py:36"]}
{"id": "C143", "title": "A bus without a generator in service is a PQ bus, whatever its declared type", "statement": "The declared type (PQ, PV or REF) of a bus at which no generator is in service does not matter to a power flow: two cases that differ only in such types (and in what power flows ignore, C141) raise, diverge or succeed alike, by every AC algorithm and in the DC power flow, and return the same rows but for these types, each row keeping its own.", "quantifier": "all pairs of well-formed cases related like this, any equipment out of service, all options, reactive limits enforced or not, and any linear solver", "why_tests_cant": "a relation between two runs over all patterns of outages of generators and all declared types; a rule that takes the declared type at one place and the generators in service at another shows only when a generator at a PV or REF bus is out of service, on cases tests do not contain", "anchors": ["pypower/bustypes.py:16-50", "pypower/ext2int.py:99-160", "pypower/runpf.py:96-305", "pypower/pfsoln.py:33-97"]}
