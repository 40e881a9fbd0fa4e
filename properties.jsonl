{"id": "C01", "title": "Closed-form lattice sums are exact", "statement": "firstOrderSum, secondOrderSum and secondOrderOffsetSum return, for a range [first,last] of cluster sizes and any reference value(s), exactly the sum over the integers in the range of (n-mean), (n-mean)^2 and (n-mean1)(n+shift-mean2); they return 0 on an empty range.", "quantifier": "every pair of integer bounds (including empty and single-point ranges) and every real mean/offset", "why_tests_cant": "tests evaluate a handful of ranges; the coefficients of grouped reactions use arbitrary ranges and rational means", "anchors": ["xolotl/util/include/xolotl/util/MathUtils.h: firstOrderSum, secondOrderSum, secondOrderOffsetSum"]}
{"id": "C02", "title": "Reaction overlap counts the possible compositions", "statement": "The number of overlaps a grouped reaction A+B->C+D is normalised with equals the number of integer composition quadruples (a,b,c,d), one from each of the four groups, with a+b=c+d on every axis; it is positive exactly when at least one such quadruple exists.", "quantifier": "every choice of four boxes of compositions, any widths, any number of axes", "why_tests_cant": "the widths are accumulated by a double loop over two groups; tests only cover a few fixed groups", "anchors": ["xolotl/core/include/xolotl/core/network/impl/Reaction.tpp: Reaction::computeOverlap", "xolotl/core/include/xolotl/core/network/detail/ReactionUtility.h"]}
{"id": "C03", "title": "Production coefficients are averages over the overlap set", "statement": "The coefficients used by a production reaction equal the averages, over all composition quadruples with a+b=c+d, of the products of normalised deviations of the two reactants from their group centres and (for reactant/product first-moment equations) of the deviation of the updated cluster: i.e. the linear-in-group closure is evaluated exactly.", "quantifier": "every four groups, every pair of moment directions, zero or one or two products", "why_tests_cant": "closed-form case analysis per axis; unit tests compare a few numbers", "anchors": ["xolotl/core/include/xolotl/core/network/impl/Reaction.tpp: ProductionReaction::computeCoefficients"]}
{"id": "C04", "title": "Production reactions conserve every species", "statement": "For any concentrations and first moments, the contribution of a production reaction to the time derivative conserves, for each composition axis, the total content sum over clusters of (volume*(mean*L0) + first-moment content), provided the product(s) overlap covers all reachable compositions; the number of clusters lost equals twice the reaction flux and each product gains one flux.", "quantifier": "every pair of reactant groups and product groups, every concentration vector, every rate", "why_tests_cant": "holds only if coefficients for the 0th and 1st moment equations fit together for every group geometry", "anchors": ["xolotl/core/include/xolotl/core/network/impl/Reaction.tpp: ProductionReaction::computeFlux, computeCoefficients"]}
{"id": "C05", "title": "Dissociation reactions conserve every species", "statement": "For any concentrations and first moments, the contribution of a dissociation reaction conserves the total content of each species and exactly one reactant is lost per pair of products.", "quantifier": "every reactant/product group triple, every concentration vector, every rate", "why_tests_cant": "same as for production", "anchors": ["xolotl/core/include/xolotl/core/network/impl/Reaction.tpp: DissociationReaction::computeFlux, computeCoefficients"]}
{"id": "C06", "title": "Re-solution, trap-mutation, nucleation and sink stoichiometry", "statement": "Re-solution turns one reactant into its two products, trap mutation turns He_n into He_nV_k + I_k conserving helium and the V-I balance, nucleation consumes two xenon per dimer and never drives xenon below zero over the nominal step, and a sink only removes the cluster it is attached to at a rate proportional to its concentration.", "quantifier": "every concentration vector, every rate, enabled or disabled at each grid point", "why_tests_cant": "numeric tests check single states", "anchors": ["xolotl/core/include/xolotl/core/network/impl/ReSolutionReaction.tpp", "xolotl/core/include/xolotl/core/network/impl/TrapMutationReaction.tpp", "xolotl/core/include/xolotl/core/network/impl/NucleationReaction.tpp", "xolotl/core/include/xolotl/core/network/impl/SinkReaction.tpp"]}
{"id": "C07", "title": "Network-wide conservation and reaction-order independence", "statement": "computeAllFluxes adds the contributions of all reactions atomically and concurrently: the resulting right-hand side is the same for every order in which the reactions are processed, and if each reaction conserves a content functional then so does the whole network.", "quantifier": "every finite collection of reactions, every processing order/interleaving of the individual atomic additions", "why_tests_cant": "thread schedules cannot be enumerated by tests", "anchors": ["xolotl/core/include/xolotl/core/network/impl/ReactionNetwork.tpp: computeAllFluxes", "xolotl/core/include/xolotl/core/network/ReactionCollection.h: forEach"]}
{"id": "C08", "title": "Full Jacobian is the exact derivative of the flux", "statement": "For every reaction type, the entries added by computeAllPartials are the exact partial derivatives of the values added by computeAllFluxes with respect to each concentration and each first moment, and no other derivative is non-zero.", "quantifier": "every concentration vector, every direction, every reaction with 0, 1 or 2 products, grouped or not, reactants equal or distinct", "why_tests_cant": "finite-difference tests sample points; the Jacobian must be right in every state the solver visits", "anchors": ["xolotl/core/include/xolotl/core/network/impl/Reaction.tpp: computePartialDerivatives (Production, Dissociation)"]}
{"id": "C09", "title": "Jacobian sparsity covers every update", "statement": "Every (row, column) at which a reaction adds a partial derivative is present in the diagonal fill (connectivity) reported to the solver before the reactions are evaluated, so no update is lost or written outside the allocated entries.", "quantifier": "every reaction, every combination of valid/invalid products and moments", "why_tests_cant": "a missing pair only shows for particular group layouts", "anchors": ["xolotl/core/include/xolotl/core/network/impl/Reaction.tpp: computeConnectivity, mapJacobianEntries", "xolotl/core/include/xolotl/core/network/detail/ClusterConnectivity.h"]}
{"id": "C10", "title": "Reduced Jacobian is the diagonal part of the full one", "statement": "computeReducedPartialDerivatives adds exactly those entries of the full Jacobian that couple a degree of freedom to itself (the part reported by the reduced connectivity).", "quantifier": "every reaction type and layout of moments", "why_tests_cant": "depends on which moments exist on which participant", "anchors": ["xolotl/core/include/xolotl/core/network/impl/Reaction.tpp: computeReducedPartialDerivatives", "xolotl/core/include/xolotl/core/network/impl/ReSolutionReaction.tpp"]}
{"id": "C11", "title": "Connectivity set construction is schedule independent", "statement": "After all (row, column) pairs have been added concurrently in the counting pass and then in the filling pass, each row holds exactly the set of added columns, with no duplicate, no lost column and never more entries than were counted, for every interleaving; looking up an added pair always succeeds and returns a unique position.", "quantifier": "every multiset of pairs, every interleaving of atomic operations, any number of threads", "why_tests_cant": "lock-free compare-and-swap insertion: races are not reproducible in tests", "anchors": ["xolotl/core/include/xolotl/core/network/detail/ClusterConnectivity.h: add, operator()"]}
{"id": "C12", "title": "Two-pass reaction generation loses and duplicates nothing", "statement": "The reactions produced by the generator's count pass followed by its construct pass are exactly the reactions requested, each stored once in the row of its first cluster, whatever the interleaving of threads in either pass.", "quantifier": "every sequence of reaction requests, every interleaving", "why_tests_cant": "the construct pass claims slots with atomic counters; tests exercise one schedule", "anchors": ["xolotl/core/include/xolotl/core/network/impl/ReactionGenerator.tpp", "xolotl/core/include/xolotl/core/network/detail/ReactionGenerator.h"]}
{"id": "C13", "title": "Degree-of-freedom numbering is a bijection", "statement": "Cluster ids and first-moment ids together number the degrees of freedom 0..DOF-1 without gaps or collisions; a moment id is assigned to exactly those (cluster, direction) with more than one size in that direction.", "quantifier": "every list of cluster regions", "why_tests_cant": "tests look at total DOF for fixed networks", "anchors": ["xolotl/core/include/xolotl/core/network/impl/ClusterData.tpp: generate / defineMomentIds", "xolotl/core/include/xolotl/core/network/impl/ReactionNetwork.tpp: defineMomentIds"]}
{"id": "C14", "title": "Heterogeneous reaction indexing is a bijection", "statement": "A global reaction index i in [0,total) designates exactly one reaction of exactly one type; resizing one reaction type keeps this property and the begin-index table stays the prefix sums of the sizes.", "quantifier": "every list of types/sizes and every sequence of set operations", "why_tests_cant": "tests use one fixed set of types", "anchors": ["xolotl/core/include/xolotl/core/network/detail/MultiElementCollection.h: updateIndices, setView, apply, getElementBeginIndices"]}
{"id": "C15", "title": "Time stepping is monotone, exact and terminates", "statement": "Stepping through the coupling loop visits strictly increasing times, the time at step k equals start time plus the sum of the first k step sizes, the loop stops at the first time not before the end time (or after the configured number of steps), and it terminates whenever steps are bounded away from zero.", "quantifier": "every start/end time, every positive step sequence, every maximum number of steps", "why_tests_cant": "unbounded runs; tests check short sequences", "anchors": ["xolotl/util/src/TimeStepper.cpp", "xolotl/util/include/xolotl/util/TimeStepper.h"]}
{"id": "C16", "title": "Growth and ramp step sequences respect their bounds", "statement": "A growing sequence is nondecreasing, never exceeds its final value and reaches it after finitely many steps and stays there; a linear ramp goes monotonically from the initial to the final value in the configured number of steps and then stays constant.", "quantifier": "every initial/final value, growth factor, ramp length and number of steps", "why_tests_cant": "tests step a few times", "anchors": ["xolotl/util/src/GrowthFactorStepSequence.cpp", "xolotl/util/src/LinearStepSequence.cpp"]}
{"id": "C17", "title": "Random access to the step sequence agrees with stepping", "statement": "The step size and partial sum reported for a step number equal the values obtained by stepping there.", "quantifier": "every step number not before the sequence's first step, every parameter set", "why_tests_cant": "agreement must hold at every index, for restarted sequences too", "anchors": ["xolotl/util/src/GrowthFactorStepSequence.cpp: at, partialSumAt", "xolotl/util/src/TimeStepper.cpp: timeAtStep, timeStepSizeAtStep"]}
{"id": "C18", "title": "Restarting a coupled run reproduces the uninterrupted schedule", "statement": "Stopping after any step, writing the stop data, and restarting from it continues with the same times and step sizes as the run that was never stopped, however many times this is repeated.", "quantifier": "every stopping step, every number of successive restarts, every growth parameters", "why_tests_cant": "requires comparing infinite histories with interruptions at arbitrary points", "anchors": ["xolotl/interface/src/MultiXolotl.cpp: writeStopData, makeTimeStepper, startTimeStepper"]}
{"id": "C19", "title": "Constant rates reproduce the removed cross-network flux", "statement": "When a network is split into sub-instances, the constant rates computed on the full network for a sub-network, applied by the sub-network's constant reactions to its own concentrations, equal the flux that all full-network reactions not representable inside the sub-network give to that sub-network's clusters and moments.", "quantifier": "every split of the clusters, every reaction type, every concentration vector", "why_tests_cant": "each combination in/out of reactants and products is a separate code path", "anchors": ["xolotl/core/include/xolotl/core/network/impl/Reaction.tpp: computeConstantRates", "xolotl/core/include/xolotl/core/network/impl/ReSolutionReaction.tpp", "xolotl/core/include/xolotl/core/network/impl/TrapMutationReaction.tpp", "xolotl/core/include/xolotl/core/network/ConstantReaction.h"]}
{"id": "C20", "title": "Sub-network maps are faithful", "statement": "The map from a sub-instance's degrees of freedom to the full network's sends each cluster to the cluster with identical bounds and each moment to the matching moment, and concentrations of all sub-instances are gathered into the full concentration vector without losing any degree of freedom.", "quantifier": "every pair of networks with cluster bounds lists", "why_tests_cant": "silent misalignment when a cluster is missing", "anchors": ["xolotl/interface/src/XolotlInterface.cpp: initializeClusterMaps, computeConstantRates", "xolotl/interface/src/MultiXolotl.cpp"]}
{"id": "C21", "title": "Constant connectivity round trip", "statement": "The compressed row/entry representation of the constant-reaction connectivities handed to a sub-instance describes exactly the set of (row, column) pairs marked on the full network.", "quantifier": "every boolean connectivity matrix", "why_tests_cant": "off-by-one errors in compressed storage appear only for particular patterns (empty rows, last row)", "anchors": ["xolotl/interface/src/XolotlInterface.cpp: getConstantConnectivities, setConstantConnectivities"]}
{"id": "C22", "title": "Implanted flux is partitioned exactly over sub-instances", "statement": "The source term handed to the sub-instances adds up, cluster by cluster, to the source term the full network would have used.", "quantifier": "every list of flux indices (with repetitions for grouped clusters), every sub-network map", "why_tests_cant": "repeated indices occur only with grouping", "anchors": ["xolotl/core/include/xolotl/core/flux/AlphaZrFitFluxHandler.h: getImplantedFlux, setImplantedFlux", "xolotl/core/include/xolotl/core/flux/AlloyFitFluxHandler.h"]}
{"id": "C23", "title": "Incident flux integrates to the requested amplitude", "statement": "For any grid and any depth profile with positive discrete integral, the sum over grid points of implanted flux times cell width equals the flux amplitude; entries are non-negative and the first and last points receive nothing. With a non-positive integral nothing is implanted.", "quantifier": "every grid, surface position, profile function and amplitude; also after the amplitude changes with time", "why_tests_cant": "depends on matching loops in two functions for every grid", "anchors": ["xolotl/core/src/flux/FluxHandler.cpp: initializeFluxHandler, recomputeFluxHandler, computeIncidentFlux"]}
{"id": "C24", "title": "Tabulated time profiles are the piecewise linear interpolant", "statement": "The flux amplitude / temperature at any time is the piecewise linear interpolation of the table: exact at tabulated times, constant outside the table, between the neighbouring values inside, and never undefined when times are increasing.", "quantifier": "every non-empty table with increasing times and every query time", "why_tests_cant": "search loop with strict/non-strict comparisons; tests query a few times", "anchors": ["xolotl/core/src/flux/FluxHandler.cpp: getProfileAmplitude", "xolotl/core/src/temperature/ProfileHandler.cpp: getTemperature", "xolotl/core/src/temperature/HeatEquationHandler.cpp: getHeatFlux"]}
{"id": "C25", "title": "Fluence is the accumulated flux", "statement": "After any sequence of fluence increments the fluence equals the sum of amplitude times time step (scaled by the reduction factor for each custom species), and the per-species entries exist from the first increment on.", "quantifier": "every sequence of increments and amplitude changes", "why_tests_cant": "history dependent (entries are created lazily)", "anchors": ["xolotl/core/src/flux/FluxHandler.cpp: incrementFluence, computeFluence"]}
{"id": "C26", "title": "Diffusion stencil: conservation and exact derivative", "statement": "On any non-uniform grid the diffusion operator with a spatially constant coefficient is in flux form (the cell-weighted sum over any interval equals the difference of boundary fluxes), it vanishes on constant and linear profiles, and the Jacobian values are exactly the coefficients of the stencil in 1D, 2D and 3D.", "quantifier": "every positive grid spacing, coefficient, concentration field and interval of grid points", "why_tests_cant": "non-uniform spacings are continuous parameters", "anchors": ["xolotl/core/src/diffusion/Diffusion1DHandler.cpp", "xolotl/core/src/diffusion/Diffusion2DHandler.cpp", "xolotl/core/src/diffusion/Diffusion3DHandler.cpp"]}
{"id": "C27", "title": "Diffusion mask follows the sink positions", "statement": "The mask that switches off diffusion at grain-boundary sinks is cleared for exactly the advecting clusters at exactly the grid points that are on a sink, and initialising it never writes outside the mask.", "quantifier": "every grid, every set of sinks, every list of diffusing and advecting clusters", "why_tests_cant": "index arithmetic over clusters and positions; existing tests use the only layout where cluster id equals list position", "anchors": ["xolotl/core/src/diffusion/Diffusion1DHandler.cpp: initializeDiffusionGrid, computeDiffusion"]}
{"id": "C28", "title": "Advection: drift towards the sink, conservation, exact derivative", "statement": "Surface advection moves atoms only towards the surface (what leaves a grid point through advection is what its left neighbour receives on a uniform grid), grain-boundary advection moves atoms only towards the boundary, and Jacobian values equal the derivative of the flux.", "quantifier": "every position, spacing, temperature and concentration field", "why_tests_cant": "continuous parameters", "anchors": ["xolotl/core/src/advection/SurfaceAdvectionHandler.cpp", "xolotl/core/src/advection/XGBAdvectionHandler.cpp"]}
{"id": "C29", "title": "Soret diffusion Jacobian is exact", "statement": "The partial derivatives reported for thermo-migration are the derivatives of the computed flux with respect to the middle, left and right concentrations.", "quantifier": "every spacing, temperature and concentration field", "why_tests_cant": "continuous parameters; a special case skips (numerically) zero concentrations", "anchors": ["xolotl/core/src/modified/SoretDiffusionHandler.cpp"]}
{"id": "C30", "title": "Heat equation Jacobian is exact", "statement": "The partial derivatives reported for the temperature degree of freedom are the derivatives of the temperature right-hand side at every kind of grid point (surface, interior, bulk, interface).", "quantifier": "every temperature field and spacing, every grid point kind and boundary option", "why_tests_cant": "nonlinear expressions with several branches", "anchors": ["xolotl/core/src/temperature/HeatEquationHandler.cpp: computeTemperature, computePartialsForTemperature"]}
{"id": "C31", "title": "Depth grids are increasing", "statement": "Every built-in depth grid starts at 0, has two more points than requested and is strictly increasing, so all spacings used as denominators are positive.", "quantifier": "every number of points and positive parameters, for each grid type", "why_tests_cant": "number of points is unbounded; piecewise definition with 22 pieces", "anchors": ["xolotl/solver/src/handler/SolverHandler.cpp: generateGrid"]}
{"id": "C32", "title": "Moving-surface grid update", "statement": "Growing the grid by n points or retracting it by n points changes the total used depth by exactly the depth of the first n points, keeps the grid increasing and keeps the boundary spacing rule (last spacing repeated).", "quantifier": "every increasing grid and every offset, including removals that drop several points", "why_tests_cant": "depends on a data-dependent loop that removes points", "anchors": ["xolotl/solver/src/handler/SolverHandler.cpp: generateGrid (surfaceOffset != 0)"]}
{"id": "C33", "title": "Temperature transfer between grids", "statement": "Interpolating temperatures from the temperature grid to the cluster grid returns, for every location, a value between the two neighbouring temperatures (the nearest boundary value outside), reproduces grid values exactly and is independent of how the grid is distributed over processes.", "quantifier": "every pair of increasing grids, every temperature vector, every distribution of points over ranks", "why_tests_cant": "distribution and grid geometry are unbounded", "anchors": ["xolotl/solver/src/handler/SolverHandler.cpp: interpolateTemperature, generateTemperatureGrid"]}
{"id": "C34", "title": "Ragged checkpoint datasets round trip", "statement": "Writing per-grid-point lists from any number of ranks in slab order and reading any contiguous range of grid points with any other number of ranks returns exactly the lists written. A rank without grid points makes the write undefined and 2^32 values are lost silently.", "quantifier": "every ragged data set of fewer than 2^32 values, every partition over writing ranks that each own a grid point, every order of their writes, every partition over reading ranks, empty lists included", "why_tests_cant": "combinations of rank counts and ragged sizes are unbounded", "anchors": ["xolotl/io/include/xolotl/io/HDF5FileDataSet.h: RaggedDataSet2D::writeStartingIndices, writeData, readStartingIndices, readData"]}
{"id": "C35", "title": "Concentration checkpoint restores the state", "statement": "Saving the concentrations of a grid point sparsely and restoring them gives back every concentration up to the documented cut-off, including the temperature.", "quantifier": "every concentration vector", "why_tests_cant": "the cut-off and implicit position of the temperature matter only for particular values", "anchors": ["xolotl/solver/src/handler/PetscSolver1DHandler.cpp: getConcVector, setConcVector, initializeConcentration"]}
{"id": "C36", "title": "Checkpoint lookup returns the requested time step", "statement": "After any sequence of time-step groups has been added, the last group is the one most recently added, looking up a stored step returns the group stored for it and looking up an absent step returns nothing; stored times are those last written for that step.", "quantifier": "every history of added groups with any control step, loop and time step numbers", "why_tests_cant": "history dependent", "anchors": ["xolotl/io/src/XFile.cpp: addTimestepGroup, getTimestepGroup, getLastTimestepGroup"]}
{"id": "C37", "title": "Solver fill patterns are consistent", "statement": "The compressed and coordinate representations of the sparse fill map given to the solver list exactly the entries of the map, in row order, with consistent row starts and lengths. The position at which the network writes a derivative in its compressed connectivity is the position of the same row and column in the list given to the solver.", "quantifier": "every sparse fill map whose rows are below the number of degrees of freedom", "why_tests_cant": "empty rows and sizes are unbounded", "anchors": ["xolotl/solver/src/handler/PetscSolverHandler.cpp: ConvertToPetscSparseFillMap, convertToCoordinateListPair, convertToRowColPairList", "xolotl/core/include/xolotl/core/network/impl/ReactionNetwork.tpp: generateDiagonalFill, getDiagonalFill"]}
{"id": "C38", "title": "Network sizes are rounded up to a power of the grouping width", "statement": "When grouping is on, each maximum size is replaced by the smallest width^k-1 not below the request; the adjustment terminates exactly when the width is at least 2 or the request is 0, and extra vacancy refinements are added only when the pure-vacancy range is larger.", "quantifier": "every requested size and width", "why_tests_cant": "a loop over powers; some inputs never terminate", "anchors": ["xolotl/core/src/network/PSINetworkHandler.cpp", "xolotl/core/src/network/AlloyNetworkHandler.cpp", "xolotl/core/src/network/ZrNetworkHandler.cpp"]}
{"id": "C39", "title": "Process list parsing is total and exact", "statement": "A list or line of process names is accepted iff every name is known; after any sequence of accepted calls a process is enabled iff its name occurred in a call that is not followed by a later line (a line starts afresh, a list adds).", "quantifier": "every list of names and every sequence of calls", "why_tests_cant": "arbitrary sequences of calls", "anchors": ["xolotl/options/src/Options.cpp: setProcesses, addProcess"]}
{"id": "C40", "title": "Network parameter parsing", "statement": "The network size parameters set the maximum sizes independently of any previous call; the pure-vacancy maximum defaults to the vacancy maximum; sub-instance options restrict exactly one species family and jointly cover all requested families.", "quantifier": "every parameter list of admissible length, every earlier history", "why_tests_cant": "history independence", "anchors": ["xolotl/options/src/Options.cpp: setNetworkParameters", "xolotl/interface/src/AlloySubOptions.cpp", "xolotl/interface/src/AlphaZrSubOptions.cpp"]}
{"id": "C41", "title": "Tokenizer splits on blanks only", "statement": "Tokenizing a line yields exactly its maximal runs of characters other than the blank, in order; joining tokens with single blanks and tokenizing again is the identity; typed tokenizing yields one value per token, the value of the leading integer, and never fails.", "quantifier": "every string", "why_tests_cant": "arbitrary strings", "anchors": ["xolotl/util/include/xolotl/util/Tokenizer.h"]}
{"id": "C42", "title": "Timers only add up completed intervals", "statement": "A timer's value is the sum of the lengths of its completed start/stop intervals since the last reset; start on a running timer, stop on an idle one and reset on a running one are rejected and leave the timer unchanged.", "quantifier": "every sequence of start/stop/reset calls and clock readings", "why_tests_cant": "arbitrary call histories", "anchors": ["xolotl/perf/src/os/OSTimer.cpp", "xolotl/perf/include/xolotl/perf/EventCounter.h"]}
{"id": "C43", "title": "Aggregated performance statistics", "statement": "The statistics gathered over all ranks are the count, minimum, maximum, mean and population standard deviation of the values on exactly those ranks that know the object, and the set of reported objects is the union of the names over ranks.", "quantifier": "every number of ranks and every assignment of names and values to ranks", "why_tests_cant": "ranks that miss an object contribute neutral elements; tests run one rank", "anchors": ["xolotl/perf/src/PerfHandler.cpp: aggregateStatistics, collectAllObjectNames"]}
{"id": "C44", "title": "Products of interstitial-vacancy recombination are found exactly once", "statement": "For interstitial groups reacting with vacancy groups (and interstitial groups with each other), every cluster that contains a reachable product size is used as a product in exactly one generated reaction, and no unreachable product is used.", "quantifier": "every tiling of the size axis into groups and every pair of groups", "why_tests_cant": "group layouts are unbounded", "anchors": ["xolotl/core/include/xolotl/core/network/impl/PSIReactionNetwork.tpp: generator", "xolotl/core/include/xolotl/core/network/impl/ZrReactionNetwork.tpp: generator", "xolotl/core/include/xolotl/core/network/impl/AlloyReactionNetwork.tpp: generator"]}
{"id": "C45", "title": "Interval of reachable product compositions", "statement": "The product search bounds used by the general production rule contain exactly the net compositions reachable from the two reactant groups.", "quantifier": "every pair of reactant groups including interstitials reacting with vacancy-containing groups", "why_tests_cant": "unsigned arithmetic wraps only for particular groups", "anchors": ["xolotl/core/include/xolotl/core/network/impl/PSIReactionNetwork.tpp", "xolotl/core/include/xolotl/core/network/impl/FeReactionNetwork.tpp", "xolotl/core/include/xolotl/core/network/impl/NEReactionNetwork.tpp"]}
{"id": "C46", "title": "Reflected regions", "statement": "Replacing a vacancy axis and an interstitial axis by a single signed axis covers exactly the net vacancy contents of the group's compositions, and the deviation sums over the reflected axis vanish.", "quantifier": "every box of compositions", "why_tests_cant": "geometry is unbounded", "anchors": ["xolotl/core/include/xolotl/core/network/detail/ReactionUtility.h: updateReflectedRegionsForCoefs, getReflectedDispersionForCoefs"]}
{"id": "C47", "title": "Trap-mutation tables are closed", "statement": "Every vacancy size that can become active in the modified trap-mutation model, at any temperature and for any surface orientation, is among the sizes for which reactions were generated, and at a given depth a reaction is enabled exactly when its characteristic depth lies in the cell.", "quantifier": "every temperature, orientation, depth and spacing", "why_tests_cant": "tables are selected by temperature thresholds", "anchors": ["xolotl/core/include/xolotl/core/network/detail/PSITrapMutation.h", "xolotl/core/include/xolotl/core/network/impl/PSIReactionNetwork.tpp: selectTrapMutationReactions"]}
{"id": "C48", "title": "Bubble bursting releases all gas and keeps the vacancies", "statement": "After a burst at a grid point no gas remains in bubbles, the released amount equals the gas content before, and the vacancy content is unchanged.", "quantifier": "every concentration vector and every network layout", "why_tests_cant": "depends on group geometry", "anchors": ["xolotl/core/include/xolotl/core/network/impl/PSIReactionNetwork.tpp: updateBurstingConcs"]}
{"id": "C49", "title": "Totals are linear and monotone", "statement": "Reported total concentrations are linear in the concentration vector, monotone in it, additive over disjoint size ranges, and for ungrouped networks equal the true atom counts.", "quantifier": "every concentration vector, every minimum size", "why_tests_cant": "every vector", "anchors": ["xolotl/core/include/xolotl/core/network/impl/ReactionNetwork.tpp: getTotalConcentration, getTotalAtomConcentration, getTotalTrappedAtomConcentration"]}
{"id": "C50", "title": "Ordered execution across ranks", "statement": "doInOrder executes the given action on the ranks in rank order, each exactly once, and never deadlocks.", "quantifier": "every number of ranks and every interleaving of message deliveries", "why_tests_cant": "message interleavings are not controlled by tests", "anchors": ["xolotl/util/include/xolotl/util/DoInOrder.h"]}
{"id": "C51", "title": "Species sequences enumerate every species once", "statement": "Iterating over a species range visits each species id exactly once in increasing order and ids convert to and from the underlying enumeration without loss; the range without interstitials visits exactly the non-interstitial species.", "quantifier": "every species list length", "why_tests_cant": "generic in the number of species", "anchors": ["xolotl/core/include/xolotl/core/network/EnumSequence.h", "xolotl/core/include/xolotl/core/network/SpeciesEnumSequence.h", "xolotl/core/include/xolotl/core/network/SpeciesId.h"]}
{"id": "C52", "title": "Pulsed flux duty cycle", "statement": "The pulsed source is on exactly during the first fraction alpha of every period and off otherwise; over n whole periods the time it is on is alpha*n*period.", "quantifier": "every time >= 0, period > 0 and alpha in [0,1]", "why_tests_cant": "all times", "anchors": ["xolotl/core/include/xolotl/core/flux/PulsedFitFluxHandler.h: computeIncidentFlux"]}
{"id": "C53", "title": "Jacobian values land where they were announced", "statement": "Every number the solver writes into its value array during the Jacobian evaluation is stored at the index whose row and column were announced when the matrix was preallocated; indices that are skipped were announced as void; and each grid point's temperature equation is added exactly once.", "quantifier": "every grid length, boundary offsets, number of reactions, diffusing and advecting clusters, and temperature option", "why_tests_cant": "one shifted index corrupts only convergence, and only for particular boundary options", "anchors": ["xolotl/solver/src/handler/PetscSolver1DHandler.cpp: initializeSolverContext", "xolotl/solver/src/handler/PetscSolver1DHandler.cpp: computeJacobian", "xolotl/solver/src/handler/PetscSolver1DHandler.cpp: updateConcentration", "xolotl/solver/src/handler/PetscSolver2DHandler.cpp: initializeSolverContext", "xolotl/solver/src/handler/PetscSolver2DHandler.cpp: computeJacobian", "xolotl/solver/src/handler/PetscSolver3DHandler.cpp: initializeSolverContext"]}
{"id": "C54", "title": "Moving the surface keeps the profile and the interstitial account", "statement": "After the surface moved, each point of the new grid receives the linear interpolation of the old concentrations at the same distance from the bottom and never a value beyond the old profile; and the interstitial account changes by exactly the content of the depth added or removed.", "quantifier": "every grid, every concentration profile, every surface movement", "why_tests_cant": "grids, profiles and movements are unbounded", "anchors": ["xolotl/solver/src/handler/PetscSolver1DHandler.cpp: initializeConcentration", "xolotl/solver/src/monitor/PetscMonitor1D.cpp: postEventFunction"]}
{"id": "C55", "title": "Comment removal keeps exactly the code", "statement": "Removing comments from a parameter file yields the characters outside of comments, in order and without line breaks; block comments may span lines and do not nest; text without comment marks is only stripped of its line breaks.", "quantifier": "every text", "why_tests_cant": "arbitrary nesting of comment marks and line breaks", "anchors": ["xolotl/options/src/JSONOptions.cpp: stripComments"]}
{"id": "C58", "title": "Reaction rate constants are symmetric, positive and obey detailed balance", "statement": "The capture rate constant of two clusters does not depend on their order and is positive when one of them moves; the rate constant of the reverse reaction is the capture rate times exp(-E/kT)/omega with the binding energy E, so that production and dissociation cancel exactly for the concentrations in mass-action equilibrium; it decreases with the binding energy and increases with the temperature; and the binding energies computed from fits stay within the bounds the code states.", "quantifier": "every pair of cluster kinds, radii, sizes, diffusion coefficients, temperatures and binding energies", "why_tests_cant": "continuous parameters and all pairs of cluster kinds; tests sample a few reactions of small networks", "anchors": ["xolotl/core/include/xolotl/core/network/impl/ReactionNetwork.tpp / Reaction.tpp: getRateForProduction, computeRate", "AlloyReaction.tpp / ZrReaction.tpp: getRate, computeBindingEnergy, computeRate"]}
{"id": "C59", "title": "Rates read from a file agree with thermal equilibrium", "statement": "With rates and energies read from a reaction file, the tables are symmetric in the two reactants and the last line about a pair decides; the free energy of a cluster is the smallest one of its states; and at the thermal equilibrium concentrations exp(-g/kT)/omega every production is cancelled by its dissociation, every sink and every thermal source leaves the concentrations unchanged.", "quantifier": "every reaction file, every pair of clusters, all energies and temperatures", "why_tests_cant": "unbounded files and continuous energies; no test uses a reaction file", "anchors": ["xolotl/core/include/xolotl/core/network/impl/NEReactionNetwork.tpp: readReactions", "xolotl/core/include/xolotl/core/network/impl/NEReaction.tpp: getRate, computeRate, NESinkReaction"]}
{"id": "C56", "title": "Checkpoints are written once per stride", "statement": "During a run, checkpoint number k is written in the first step that reaches k times the stride: at most a tenth of the step early and less than a step late; the number of checkpoints is the number of multiples of the stride that were passed; and a restarted run writes the same checkpoints as the original one.", "quantifier": "every stride, every sequence of time steps, every restart point", "why_tests_cant": "arbitrary adaptive time steps; the counter is hidden state that drifts over many steps", "anchors": ["xolotl/solver/src/monitor/PetscMonitor.cpp: startStop, monitorTime", "xolotl/solver/src/monitor/PetscMonitor1D.cpp: setup of _hdf5Previous"]}
{"id": "C62", "title": "Files read line by line are read to their end", "statement": "Reading a reaction file or the parameters of a custom flux ends for every content of the file and uses exactly the lines before the first blank line, respectively the word that separates clusters from reactions; whether the last line ends with a line break makes no difference.", "quantifier": "every text", "why_tests_cant": "termination for arbitrary texts; a hanging program is no test result", "anchors": ["xolotl/core/include/xolotl/core/network/impl/NEReactionNetwork.tpp: readClusters, readReactions", "xolotl/core/include/xolotl/core/flux/CustomFitFluxHandler.h: initializeFluxHandler", "xolotl/solver/src/monitor/PetscMonitor0D.cpp", "xolotl/core/include/xolotl/core/flux/FuelFitFluxHandler.h"]}
{"id": "C60", "title": "Tungsten clusters: which exist, and that their energies are defined", "statement": "A single composition is selected exactly when it is a pure cluster within its maximum size or a bubble within the limits of helium per vacancy and of hydrogen; grouping loses no such composition; for every selected cluster the tables of formation and binding energies are read within their bounds and give numbers, and the binding energy of an emitted vacancy is interpolated between its values at the two ends of the range.", "quantifier": "all options, compositions, regions and reaction products", "why_tests_cant": "five unbounded dimensions of compositions and all option values; reading past a row of a table of doubles is silent", "anchors": ["xolotl/core/include/xolotl/core/network/PSIClusterGenerator.h: getMaxHePerV", "xolotl/core/include/xolotl/core/network/impl/PSIClusterGenerator.tpp: select, getFormationEnergy, getHeVFormationEnergy", "xolotl/core/include/xolotl/core/network/impl/PSIReaction.tpp: PSIDissociationReaction::computeBindingEnergy"]}
{"id": "C64", "title": "Which clusters exist in fuel, iron, zirconium and alloy networks", "statement": "A single composition is selected exactly when it is one of the clusters the network is meant to have: a pure cluster within the limits of its species, or, in fuel and iron, a bubble within the limits.  A group that holds such a composition is selected, and a group that is not refined further holds only such compositions.  Small sizes and the edges of the box are always refined.", "quantifier": "all options, compositions and regions", "why_tests_cant": "the tests fix a handful of networks; the property ranges over all maximum sizes, grouping widths and regions", "anchors": ["xolotl/core/include/xolotl/core/network/impl/NEClusterGenerator.tpp: select, refine", "xolotl/core/include/xolotl/core/network/impl/FeClusterGenerator.tpp: select", "xolotl/core/include/xolotl/core/network/impl/ZrClusterGenerator.tpp: select, refine", "xolotl/core/include/xolotl/core/network/impl/AlloyClusterGenerator.tpp: select, refine"]}
{"id": "C63", "title": "Radii and mobility of clusters", "statement": "Every selected cluster has a positive radius; the radius follows from the volume, area or surface of its defects and grows with their number; the radius of a group is the mean over its members, so that it lies between the radii of its smallest and largest member.  A cluster has a migration energy exactly when it has a positive diffusion factor, and exactly the listed small clusters have one; the mobility of a group is the mean over its members.", "quantifier": "all compositions, regions, lattice parameters, radii and transition sizes", "why_tests_cant": "a handful of clusters with fixed parameters is compared against numbers; the order of sizes and the means over groups are statements about all of them", "anchors": ["xolotl/core/include/xolotl/core/network/impl/PSIClusterGenerator.tpp: getMigrationEnergy, getDiffusionFactor, getReactionRadius", "xolotl/core/include/xolotl/core/network/impl/NEClusterGenerator.tpp: getReactionRadius", "xolotl/core/include/xolotl/core/network/impl/FeClusterGenerator.tpp: getMigrationEnergy, getDiffusionFactor, getReactionRadius", "xolotl/core/include/xolotl/core/network/impl/ZrClusterGenerator.tpp: getMigrationEnergy, getDiffusionFactor, getReactionRadius", "xolotl/core/include/xolotl/core/network/impl/AlloyClusterGenerator.tpp: getMigrationEnergy, getDiffusionFactor, getReactionRadius"]}
{"id": "C57", "title": "Implantation from a file of profiles, and pulsed defects", "statement": "A parameter file of cluster lines and profile lines is read back exactly and malformed lines are refused.  Whatever the rows, grid, surface position, history of amplitudes and order of the parallel loop, the amount every cluster receives, integrated over the depth, is the current amplitude times the sum of the factors of its rows.  In pulsed mode vacancies and interstitials receive the same, only during pulses.  Every such run is defined.", "quantifier": "all files, grids, surface positions, sequences of amplitudes and interleavings", "why_tests_cant": "one file with distinct clusters on one grid is tested; sums over repeated clusters, histories of amplitudes and missing or empty files are not", "anchors": ["xolotl/core/include/xolotl/core/flux/CustomFitFluxHandler.h: initializeFluxHandler, recomputeFluxHandler, computeIncidentFlux, getInstantFlux", "xolotl/core/include/xolotl/core/flux/PulsedFitFluxHandler.h: initializeFluxHandler, computeIncidentFlux", "xolotl/core/src/flux/FluxHandler.cpp: syncIncidentFluxVec"]}
{"id": "C61", "title": "The account of what left the material", "statement": "After any number of time steps, solver loops (moves of the surface) and restarts, the account of each species at a boundary is the flux at the start of each step times the length of the step, summed over all steps; all processes hold the same account; and on the grid the content changes by the opposite of the reported fluxes.", "quantifier": "all sequences of steps and loops, splittings over processes, grids, networks and concentrations", "why_tests_cant": "the monitors are only run in short system tests without moves of the surface and compared to stored numbers; balances over all histories are not observed", "anchors": ["xolotl/solver/src/monitor/PetscMonitor1D.cpp: computeHeliumRetention", "xolotl/solver/include/xolotl/solver/monitor/PetscMonitor1D.h, PetscMonitor2D.h, PetscMonitor3D.h: keepFlux, setFlux", "xolotl/solver/src/PetscSolver.cpp: initialize, solve", "xolotl/core/include/xolotl/core/network/impl/ReactionNetwork.tpp: updateOutgoingDiffFluxes"]}
{"id": "C65", "title": "Surface events", "statement": "Over a loop the account of interstitials changes by what came in minus what was sputtered.  The surface grows exactly when the account exceeds the content of the cell above and is eroded exactly when it falls below nine tenths of the content of the cell below, never both; growth is by one point and leaves a positive account, erosion takes the fewest points that make the account non-negative, and ends if there is material.  The atoms that came in are those in the account plus those in new layers, also over several loops.  Bubbles burst with a probability that grows with their radius and falls with their distance, and never without helium.  Small concentrations are raised to the threshold without change of sign.", "quantifier": "all grids, accounts, fluxes, sequences of steps and of loops, bubbles, concentrations", "why_tests_cant": "surface moves are only exercised by system tests on one grid with fixed seeds; thresholds, several loops and the end of the grid are not reached", "anchors": ["xolotl/solver/src/monitor/PetscMonitor1D.cpp: eventFunction, postEventFunction, checkNegative", "xolotl/solver/include/xolotl/solver/monitor/PetscMonitor1D.h: keepFlux, setFlux", "xolotl/solver/src/PetscSolver.cpp: solve"]}
{"id": "C66", "title": "Temperatures used by the one-dimensional solver", "statement": "In every evaluation the heat equation is applied exactly once at every point whose temperature is not fixed.  After any sequence of evaluations every process computes its rates with temperatures that are within a tenth of a degree of the current ones, and processes that share a point use the same.  Modified trap mutation uses, on all processes, the tables for the temperature of the first point below the surface, and each depth of the tables is selected at one grid point.", "quantifier": "all grids, offsets, grain boundaries, splittings over processes, sequences of evaluations and temperatures", "why_tests_cant": "tests run on one process with one grid and constant temperature; the index used for trap mutation and the number of applications are not observable there", "anchors": ["xolotl/solver/src/handler/PetscSolver1DHandler.cpp: updateConcentration, computeJacobian, initializeConcentration", "xolotl/core/include/xolotl/core/network/impl/PSIReactionNetwork.tpp: updateExtraClusterData, selectTrapMutationReactions", "xolotl/solver/src/handler/PetscSolver2DHandler.cpp: initializeConcentration"]}
{"id": "C67", "title": "Options that are lists of values reach the simulation", "statement": "Temperature, grid, boundary, coupling, pulse, grouping, minimum size, random number and solver arguments and initial concentrations given in a parameter file reach the simulation value by value and in order, values not given keep their defaults, and a list that has the wrong length or holds something that cannot be read is reported.  Writing a list as a JSON list or as a text makes no difference.  A new point starts with exactly the requested concentrations, a seed makes a run reproducible and differs between processes, and only combinations of processes that make sense are accepted.", "quantifier": "all lists of values, texts, sequences of calls, networks, grids and ranks", "why_tests_cant": "tests use parameter files with the right number of readable values", "anchors": ["xolotl/options/src/Options.cpp: setTempParam, setGridParam, setBoundaries, setCouplingTimeStepParams, setPulseParams, setGroupingParams, setRadiusMinSizes, processRNGParam, appendPetscArg", "xolotl/options/src/JSONOptions.cpp: readParams, checkSetParam, asVector", "xolotl/solver/src/handler/SolverHandler.cpp: initializeHandlers", "xolotl/solver/src/handler/PetscSolver1DHandler.cpp: initializeConcentration"]}
{"id": "C68", "title": "The coupled run and its output file", "statement": "In a coupled step every local grid point gets rates computed from its own temperature and depth and from the concentrations of all sub-instances there at the beginning of the step, so that the order in which the sub-instances are solved does not matter.  Every line of the monitor file holds, in the order of the header, the densities, atoms and mean diameters of the compositions counted, whatever the distribution over processes; mean diameters lie between the diameters of the clusters counted.  The file of a run has a header and one line for every solve, with the state reached and the time asked for, and a restarted run continues it.  The list of restart files is read back as it was written and every instance gets its own.", "quantifier": "all networks, concentrations, weights, numbers of points, processes and sub-instances, schedules and numbers of steps", "why_tests_cant": "tests compare one short run from time zero with a stored file", "anchors": ["xolotl/interface/src/MultiXolotl.cpp: getSubInstanceData, solveStep, updateTemperaturesAndRates, readRestartFile, writeRestartFile, writeStopData", "xolotl/interface/src/XolotlInterface.cpp: outputData", "xolotl/core/src/network/ZrReactionNetwork.cpp: addMonitorDataValues, writeMonitorDataLine, getMonitorDataHeaderString", "xolotl/core/src/network/AlloyReactionNetwork.cpp: the same", "xolotl/solver/src/monitor/PetscMonitor1D.cpp: computeAlloy, computeAlphaZr"]}
{"id": "C69", "title": "Grouping of tungsten and iron clusters", "statement": "When the subdivision of a tungsten or iron network has ended, all compositions of a group consist of the same species, no composition meant to exist is lost, every composition of a selected group is within the helium capacity of its vacancies and within the maximum sizes, clusters below the minimum size for grouping stand alone, and no axis of a group is wider than its options allow.", "quantifier": "all options, regions and compositions", "why_tests_cant": "tests build a few networks and count their clusters", "anchors": ["xolotl/core/include/xolotl/core/network/impl/PSIClusterGenerator.tpp: refine, select", "xolotl/core/include/xolotl/core/network/impl/FeClusterGenerator.tpp: refine, select"]}
{"id": "C70", "title": "Surface in two and three dimensions", "statement": "Moving the surfaces of the lines of a two- or three-dimensional grid keeps the atoms of every line: what leaves or enters an account is what is added to or taken from the material of that line, before and after the grid is changed.  Surfaces stay inside the grid, a line moves exactly as far as its account covers, lines that report an event move, and account and open faces of a line do not depend on the dimension of the grid.", "quantifier": "all grids, accounts, positions and numbers of lines", "why_tests_cant": "no test moves a surface in two or three dimensions; the loops depend on accounts that arise after many steps", "anchors": ["xolotl/solver/src/monitor/PetscMonitor2D.cpp: eventFunction, postEventFunction", "xolotl/solver/src/monitor/PetscMonitor3D.cpp: eventFunction, postEventFunction", "xolotl/solver/src/handler/SolverHandler.cpp: generateGrid"]}
{"id": "C71", "title": "Lines in two and three dimensions", "statement": "Right hand side and Jacobian use, for every line of a two- or three-dimensional grid, the helium near the surface of that line and the temperatures of that line, however the grid is divided among processes; evaluating a state twice gives the same rates; and a new grid gives every point the value interpolated on its own line.", "quantifier": "all grids, divisions among processes, temperatures and numbers of lines", "why_tests_cant": "the solver tests run on one process, with one temperature and a fixed surface; differences between lines and processes do not arise there", "anchors": ["xolotl/solver/src/handler/PetscSolver2DHandler.cpp: updateConcentration, computeJacobian, initializeConcentration", "xolotl/solver/src/handler/PetscSolver3DHandler.cpp: updateConcentration, computeJacobian, initializeConcentration"]}
{"id": "C72", "title": "Sources of defects", "statement": "The handlers that create defects inside the material (fuel, iron, zirconium, alloy) make vacancies and interstitials in equal numbers, following the amplitude given as a function of time and reduced with the dose between 1 and the efficiency; the sources do not depend on how often the handler is initialised and every access stays inside its vectors.", "quantifier": "all times, amplitudes, doses, efficiencies, networks (which clusters exist), reaction files, grids and numbers of initialisations", "why_tests_cant": "the tests use one network each that contains all clusters, initialise once and use a constant amplitude; the saturation with the dose is a limit in time", "anchors": ["xolotl/core/include/xolotl/core/flux/FuelFitFluxHandler.h: initializeFluxHandler, computeIncidentFlux", "xolotl/core/include/xolotl/core/flux/FeFitFluxHandler.h: initializeFluxHandler, computeIncidentFlux", "xolotl/core/include/xolotl/core/flux/AlphaZrFitFluxHandler.h: initializeFluxHandler, computeIncidentFlux", "xolotl/core/include/xolotl/core/flux/AlloyFitFluxHandler.h: AlloyDamageFunction, AlloySetGeneration, initializeFluxHandler, computeIncidentFlux", "xolotl/core/src/flux/FluxHandler.cpp: computeIncidentFlux"]}
{"id": "C73", "title": "Reactions of a pair of clusters in alloys and zirconium", "statement": "For every pair of clusters of which one can move, the generators of the alloy and zirconium networks add exactly the reactions announced in their comments: every cluster that two members can make is the product of one production, vacancies and interstitials of equal size recombine without a product, whatever can be made by absorbing a single vacancy (or interstitial in zirconium) can dissociate, the order of the pair does not matter, and two single clusters disappear at the rate at which they meet.", "quantifier": "all networks (clusters of each kind, single or grouped), pairs of clusters, limits of the options", "why_tests_cant": "the tests compare the reactions of one small network with recorded values; the interplay of six kinds of clusters, groups and limits is far larger", "anchors": ["xolotl/core/include/xolotl/core/network/impl/AlloyReactionNetwork.tpp: AlloyReactionGenerator::operator(), addSinks", "xolotl/core/include/xolotl/core/network/impl/ZrReactionNetwork.tpp: ZrReactionGenerator::operator(), addSinks", "xolotl/core/include/xolotl/core/network/impl/AlloyReaction.tpp: AlloyProductionReaction::getRateForProduction"]}
{"id": "C74", "title": "Reactions of a pair of clusters in tungsten, iron and fuel", "statement": "For every pair of clusters of which one can move, the generators of the tungsten, iron and fuel networks make each cluster that holds a possible result of joining two members the product of exactly one production, add exactly one annihilation when nothing is left, and let a product come apart again exactly under the documented conditions on the fragments; the order of the pair does not matter; trap mutation with an emitted interstitial conserves gas and defects; re-solution and sinks exist exactly for the announced clusters.", "quantifier": "all networks (disjoint clusters, single or grouped, any set of gas species), pairs of clusters, mobilities and trap mutation tables", "why_tests_cant": "the tests compare the number of reactions of a few networks with recorded values; which pairs are missing or doubled for groups, for clusters beyond the largest size or in the other order is not visible there", "anchors": ["xolotl/core/include/xolotl/core/network/impl/PSIReactionNetwork.tpp: PSIReactionGenerator::operator(), addSinks", "xolotl/core/include/xolotl/core/network/impl/FeReactionNetwork.tpp: FeReactionGenerator::operator(), addSinks", "xolotl/core/include/xolotl/core/network/impl/NEReactionNetwork.tpp: NEReactionGenerator::operator(), addSinks"]}
{"id": "C75", "title": "The network generated from its clusters conserves gas and lattice sites", "statement": "The reactions that the tungsten, iron and fuel generators make of all pairs of clusters, with the coefficients, volumes and moment ids their constructors take from those clusters, change neither the amount of any gas nor, apart from sinks, the number of vacancies less interstitials, whatever the rates, the concentrations and the order in which the threads add their contributions.", "quantifier": "all cluster layouts (disjoint clusters, single or grouped along one axis, any set of gases), rates, mobilities, concentrations, moment numberings and interleavings of the threads", "why_tests_cant": "the tests compare the flux of one network with recorded numbers; conservation over every network, rate and concentration is an identity that only a proof through the generation of the pairs, the reflection of the regions and the coefficients can establish", "anchors": ["xolotl/core/include/xolotl/core/network/detail/impl/ReactionGenerator.tpp: generateReactions", "xolotl/core/include/xolotl/core/network/impl/Reaction.tpp: ProductionReaction, DissociationReaction constructors and computeCoefficients", "xolotl/core/include/xolotl/core/network/detail/ReactionUtility.h: updateReflectedRegionsForCoefs, getReflectedDispersionForCoefs"]}
{"id": "C76", "title": "The fuel network's own reactions: conservation and binding energies", "statement": "With the fuel network's own productions (which add a source to pairs that leave nothing), dissociations and sinks (towards an equilibrium concentration) the amount of xenon does not change and vacancies less interstitials change exactly by the exchange with the sinks; sources and equilibrium concentrations do not enter derivatives. The binding energy of a vacancy, a pair of vacancies, an interstitial or a xenon atom is its formation energy less the corresponding derivative of one energy of the bubble, homogeneous in xenon and vacancies, limited to [-1, 5]; it does not depend on the order of the products, and the energies of a vacancy and an interstitial add up to the energy of the pair.", "quantifier": "all cluster layouts, rates, sources, equilibrium concentrations, concentrations, interleavings; all xenon and vacancy contents and formation energies", "why_tests_cant": "the fuel tests compare a few fluxes; that three hand-written loops are partial derivatives of one energy, and that sources cancel in every network, are identities over reals", "anchors": ["xolotl/core/include/xolotl/core/network/impl/NEReaction.tpp: NEProductionReaction::computeFlux, NEDissociationReaction::computeBindingEnergy, NESinkReaction::computeFlux"]}
{"id": "C77", "title": "Binding energies of iron and zirconium, sinks of iron, capture radii of zirconium", "statement": "The binding energies of iron lie in [-5, 5], do not depend on the order of the products, are read inside the table for every cluster the generator selects, grow with the size of a vacancy cluster (positive from two on) and with its helium, and those of a vacancy and an interstitial add up to a constant. Those of zirconium are at least 0.1, grow with the size of vacancy, interstitial and basal clusters, stay below the formation energies, and the lower limit acts only on basal loops smaller than 5; the growth fails at 925 vacancies, where the fits change. Iron's sinks have positive strength; zirconium's capture radii are positive, grow and continue into the constants.", "quantifier": "all sizes (real mean sizes from 1 on; multiples of 1/2 for interstitials), helium contents, groups, products, lattice parameters up to 10 nm, transition sizes from 200 on", "why_tests_cant": "tests sample a few clusters; monotonicity of differences of powers and logarithms over all sizes, across four fits, needs concavity, and the one place where it fails lies at size 925", "anchors": ["xolotl/core/include/xolotl/core/network/impl/FeReaction.tpp: FeDissociationReaction::computeBindingEnergy, FeSinkReaction::getSinkStrength", "xolotl/core/include/xolotl/core/network/impl/ZrReaction.tpp: ZrDissociationReaction::computeBindingEnergy", "xolotl/core/src/network/ZrReactionNetwork.cpp: initializeExtraClusterData"]}
{"id": "C78", "title": "Networks of zirconium and alloys conserve the lattice", "statement": "Assemble the flux of a zirconium or alloy network from its clusters, as the loops over all pairs with the reactions, products, dissociations and sinks that the material's own rules generate. The number of vacancies (alone, in voids, basal or faulted loops) less the number of interstitials (alone, in perfect or Frank loops), summed over all sizes of all clusters and groups with their first moments, then changes only by what the sinks remove. This holds when a group only meets mobile clusters of the opposite kind that are single and smaller than it; when a mobile cluster meets a group that is not above it, the reflection turns the group's moment and the number is not conserved.", "quantifier": "all sets of disjoint clusters and groups, all rates, concentrations and moments, all interleavings of the updates of the threads", "why_tests_cant": "the tests compare the flux of one small ungrouped network with stored numbers; conservation over every layout of groups, with moments, needs an argument over all pairs and products, and the violation needs a group of the opposite kind with a non-zero moment", "anchors": ["xolotl/core/include/xolotl/core/network/impl/ZrReactionNetwork.tpp: ZrReactionGenerator::operator()", "xolotl/core/include/xolotl/core/network/impl/AlloyReactionNetwork.tpp: AlloyReactionGenerator::operator()", "xolotl/core/include/xolotl/core/network/impl/Reaction.tpp: ProductionReaction, DissociationReaction", "xolotl/core/include/xolotl/core/network/detail/ReactionUtility.h: updateReflectedRegionsForCoefs, getReflectedDispersionForCoefs"]}
{"id": "C79", "title": "Assembled networks stay inside their degrees of freedom", "statement": "With the ids that defineMomentIds assigns to the regions of the clusters, every network (tungsten, iron, fuel, zirconium, alloys) assembled from its clusters meets what its conservation laws ask of the ids: one moment for each grouped species, above the ids of the clusters, no id used twice. No reaction of the network updates an entry of the right-hand side or of the Jacobian outside the numbers of degrees of freedom that getDOF reports, and none reads a concentration outside them. Hence the conservation laws hold for the networks with the ids they really use.", "quantifier": "all layouts of clusters, all rates, concentrations, sets of mobile clusters, schedules", "why_tests_cant": "the tests build a few networks; an index out of range would be silent undefined behaviour in a release build, and only for the layouts of groups that trigger it", "anchors": ["xolotl/core/include/xolotl/core/network/detail/impl/ClusterData.tpp: defineMomentIds", "xolotl/core/include/xolotl/core/network/impl/ReactionNetwork.tpp: computeAllFluxes, computeAllPartials, getDOF", "xolotl/core/include/xolotl/core/network/impl/Reaction.tpp: ProductionReaction, DissociationReaction", "xolotl/core/include/xolotl/core/network/AlloyTraits.h, ZrTraits.h, FeTraits.h, PSITraits.h: mapToMomentId"]}
{"id": "C80", "title": "Xenon at the grain boundaries: flux, accounts and transfer", "statement": "In a coupled fuel run, every point set as grain boundary is worked on by exactly the process that owns it. When the boundary is set, what is at its points moves into their amounts and nothing is lost. The flux that the monitor reports into a point of the boundary is the rate at which the diffusion stencil would fill it, in one, two and three dimensions, so that on the rest of the grid diffusion loses exactly what goes through the ends and into the boundaries. The total of the run and the amounts at the points grow by the fluxes times the lengths of the steps, agree with each other after any number of calls and on any number of processes, and survive a restart. The reported average radius lies between the smallest and the largest radius.", "quantifier": "all grids, dimensions, divisions among processes, sets of boundary points, clusters, concentrations, numbers of calls", "why_tests_cant": "the tests of the monitors run without grain boundaries; the two accounts, the stencil and the monitor's flux live in different files and their agreement is a sum over all points and steps", "anchors": ["xolotl/solver/src/monitor/PetscMonitor1D.cpp:1142-1375", "xolotl/solver/src/monitor/PetscMonitor2D.cpp:1040-1290", "xolotl/solver/src/monitor/PetscMonitor3D.cpp:1115-1395", "xolotl/solver/src/handler/SolverHandler.cpp:702-733", "xolotl/solver/src/handler/PetscSolver1DHandler.cpp:586-640"]}
{"id": "C81", "title": "Retention in two and three dimensions", "statement": "In two and three dimensions, whatever the positions of the surface in the columns, the free sides and the grain boundaries, diffusion takes from the points that are computed exactly what stands next to points that are not. With a flat surface and periodic sides the content that the monitor reports falls by exactly the fluxes it reports through the surface and the bottom. Two dimensions report what three report with one layer, and columns that are all alike report what one dimension reports, whatever their number and size. What is reported to have left is the sum over the columns of flux times time per area. The flux by advection towards the surface that is reported for a column is what advection takes from it.", "quantifier": "all grid sizes, steps, surface positions, offsets, numbers of columns, lists of mobile clusters, concentrations, numbers of calls", "why_tests_cant": "the tests of the monitors check a single state of a few columns with a flat surface; the balance is a sum over all points of a periodic grid of terms computed in different files", "anchors": ["xolotl/solver/src/monitor/PetscMonitor2D.cpp:684-1035", "xolotl/solver/src/monitor/PetscMonitor3D.cpp:746-1113", "xolotl/core/include/xolotl/core/network/impl/ReactionNetwork.tpp:1505-1546", "xolotl/solver/src/handler/PetscSolver3DHandler.cpp:1108-1210", "xolotl/solver/src/handler/PetscSolver2DHandler.cpp:1000-1088"]}
{"id": "C82", "title": "Mean ratio, variance and volume over the bubbles", "statement": "The mean gas-to-vacancy ratio that a network reports has a value exactly if some bubble of the minimum size is present, lies between the smallest and the largest ratio of those bubbles, and does not change when all concentrations are multiplied by the same number. The variance is never negative, is the mean of the squares less the square of the mean, is smallest around the mean and vanishes exactly if all bubbles present have the same ratio. The two columns that the monitor without dimensions prints are this mean and this variance, or zeros when there is no xenon. The volume fraction counts a sphere of the cluster's radius for each composition.", "quantifier": "all networks of boxes that are one wide along other species, all concentrations and radii, all minimum sizes", "why_tests_cant": "no test calls these functions; the numerator and the denominator are computed by loops of different shape which agree only for particular boxes", "anchors": ["xolotl/core/include/xolotl/core/network/impl/ReactionNetwork.tpp:1336-1468", "xolotl/core/include/xolotl/core/network/impl/ReactionNetwork.tpp:1548-1576", "xolotl/core/include/xolotl/core/network/ReactionNetwork.h:664-729", "xolotl/solver/src/monitor/PetscMonitor0D.cpp:387-452"]}
{"id": "C83", "title": "Rows and lines written by the monitors", "statement": "However the grid points are distributed over the ranks, every row of the TRIDYN file is written exactly once, by the rank that has the point, and nothing is written outside; depth, atoms and temperature in a row belong to the same point. Each column of the temperature profile is the temperature of its own point. Each entry of the data lines of alloys and zirconium is the sum over all computed points of the total of its own species and quantity, or the average diameter, which lies between the smallest and the largest diameter of the clusters counted; the values from the minimum size on never exceed the totals.", "quantifier": "all grids, distributions of points over ranks, offsets, networks, concentrations, minimum sizes, numbers of species", "why_tests_cant": "no test runs these monitors in parallel or compares the temperature column with the depth column", "anchors": ["xolotl/solver/src/monitor/PetscMonitor1D.cpp:1377-1498", "xolotl/solver/src/monitor/PetscMonitor1D.cpp:2043-2260", "xolotl/core/src/network/AlloyReactionNetwork.cpp:140-206", "xolotl/core/src/network/ZrReactionNetwork.cpp:242-312"]}
{"id": "C84", "title": "The monitors of a step, the fluence and restarts", "statement": "In every dimension and for all options the monitor that sets the time of the previous step runs last, and the one that writes checkpoints runs just before it, so that all monitors of a step see the same step; with exactly one kind of retention asked for, the fluence is the sum of amplitude times length over all steps, each checkpoint holds the fluence up to and with its own step, and a run restarted from a checkpoint ends with the fluence and time of the uninterrupted run. A restart takes over the time and the fluence whenever a registered monitor reads them. A step stops the run exactly if the concentration of the largest cluster is above the threshold at some point.", "quantifier": "all dimensions, options, sequences of steps with any times and amplitudes, numbers of species, strides, checkpoints and continuations", "why_tests_cant": "the tests of the monitors do not combine options, and none compares a restarted run with an uninterrupted one", "anchors": ["xolotl/solver/src/monitor/PetscMonitor.cpp:222-319", "xolotl/solver/src/monitor/PetscMonitor0D.cpp:34-338", "xolotl/solver/src/monitor/PetscMonitor1D.cpp:63-736", "xolotl/solver/src/monitor/PetscMonitor2D.cpp:45-564", "xolotl/solver/src/monitor/PetscMonitor3D.cpp:52-614"]}
{"id": "C85", "title": "The loop over the solves, its objects and its answers", "statement": "For every number of solvers in a program, every way in which the calls of TSSolve end and every option: solve is left exactly when a call ends for another reason than a move of the surface; the loops follow each other in time, and a loop after a move begins with step 0, a time step of 1.0e-12 and the limits of the options, not those given by setTimes; its concentrations are carried over exactly if the offset of the surface is not zero and there is a grid, otherwise they are those of the restart file or of the options again. The stack of options is as it was after initialize and solve, every read sees the options of the solver itself, and the status file is written exactly if its own options ask for it and names the reason. getConvergenceStatus always answers true after solve, also if the nonlinear solver failed. For each move one base of options, one grid, one vector and one time stepper are never given back, and one matrix per loop. Several solvers can be finalized one after the other exactly if the one that initialized PETSc is the last.", "quantifier": "all lists of outcomes of TSSolve, all solvers, option texts, restart files, states of PETSc and numbers of solvers", "why_tests_cant": "tests run single solvers with at most one move of the surface and do not look at objects left behind, at limits of later loops, at answers after failures or at orders of finalizing", "anchors": ["xolotl/solver/src/PetscSolver.cpp:169-291", "xolotl/solver/src/PetscSolver.cpp:293-337", "xolotl/solver/src/PetscSolver.cpp:339-444", "xolotl/solver/src/PetscSolver.cpp:446-484", "xolotl/solver/src/handler/PetscSolver1DHandler.cpp:288-305", "xolotl/solver/src/handler/PetscSolver0DHandler.cpp:122-157"]}
{"id": "C86", "title": "What a checkpoint stores in the group of a time step and what a restart reads", "statement": "For every dimension, set of options, list of distinct names of species, grid and state of the monitors: a first checkpoint into a new group writes every object under its own name, none of which another one takes, and it is defined whenever the vectors have the sizes the monitors give them. A restart with the same options reads back the quantities and fluxes at the surface and at the bottom, the bursts, the fluence, the grid with the number of its points, the positions of the surface and, in two and three dimensions, the entries of every grid point with their indices, so that its concentrations are the stored ones but for those below the threshold, with the temperature. With other options or species it succeeds exactly if everything that is looked for was stored and has a place; on another mesh the positions need at least as many grid points as before. Every rank learns the number of entries of a grid point from its owner. A second checkpoint into the same group always fails, the sizes in the other directions are lost, a left boundary other than 0 and 1 with a moving surface passes the safeguard but has no vectors to store, and a restart file without time steps leaves an empty grid with 2^32-2 points.", "quantifier": "all dimensions, options of both runs, lists of names, grids, positions, quantities, sparse grid points and ranks", "why_tests_cant": "the tests of the file write and read a handful of objects by hand; they never go through the monitors and handlers, change options between runs or repeat a step", "anchors": ["xolotl/io/src/XFile.cpp:445-494", "xolotl/io/src/XFile.cpp:515-853", "xolotl/io/src/XFile.cpp:855-894", "xolotl/io/src/XFile.cpp:970-1126", "xolotl/solver/src/monitor/PetscMonitor1D.cpp:230-260", "xolotl/solver/src/monitor/PetscMonitor1D.cpp:398-463", "xolotl/solver/src/monitor/PetscMonitor1D.cpp:766-803", "xolotl/solver/src/monitor/PetscMonitor2D.cpp:598-677", "xolotl/solver/src/monitor/PetscMonitor3D.cpp:648-737", "xolotl/solver/src/handler/PetscSolver2DHandler.cpp:32-72", "xolotl/solver/src/handler/PetscSolver3DHandler.cpp:32-86"]}
{"id": "C87", "title": "The messages between the ranks at a change of the grid and in the monitors", "statement": "For every number of ranks and every order in which MPI lets them run, with messages in flight or sends that wait for their receivers: programs whose receives name their sources, and of which one execution brings all ranks to the end, have only bounded executions, and each of them can be continued to the same end with nothing left in flight. So, if every grid point has one owner, the loop that carries the concentrations over to a new grid gives every rank exactly the two old arrays for each of its new grid points, in order, although the ranks only know the sums of the numbers of the owners. The surface plot in two dimensions, which receives from any source, still collects the points of the whole grid in order with their own positions and concentrations, because of the barrier at each grid point; without it an execution mixes two points. The series plot in one dimension never ends with more than one process, as the number of grid points is sent in a type that is longer than the one received; it would be right with the same type. The loop over a new grid cannot take a step if a process of the run is not part of the simulation.", "quantifier": "all numbers of ranks, owners, grids, data, and all interleavings of buffered or waiting sends, receives and collective operations", "why_tests_cant": "a test runs a few processes and sees one order of the messages; the loops of the plots are not run at all by the tests and a type mismatch shows only with two processes", "anchors": ["xolotl/solver/src/handler/PetscSolver1DHandler.cpp:405-504", "xolotl/solver/src/handler/PetscSolver2DHandler.cpp:430-538", "xolotl/solver/src/handler/PetscSolver3DHandler.cpp:494-606", "xolotl/solver/src/monitor/PetscMonitor1D.cpp:2308-2416", "xolotl/solver/src/monitor/PetscMonitor2D.cpp:1954-2017"]}
{"id": "C88", "title": "Reading parameter files in both formats", "statement": "For every parameter file: a read that returns gives every option a value determined by its own entry alone, by the conversion or setter of that option, or the default without an entry; the named files can be opened and the names of the handlers are known. From JSON only the first entry of a known name counts, whatever its case, and unknown or repeated entries and values that cannot be read are ignored; with different names the order of entries does not matter. The other format refuses unknown and repeated names and values that cannot be read, so that no entry is lost except a restart file that is also given on the command line, and the order does not matter either. A file that the other format accepts gives the same options when written in JSON, where the conversions of texts agree, with the arguments for the solver library as a list. A file is read as JSON exactly if its name has something in front of a final .json.", "quantifier": "all files, conversions of texts, options before the read and names of files", "why_tests_cant": "tests read a few files with a few options; they do not compare the two readers, and entries that are ignored leave no trace", "anchors": ["xolotl/options/src/JSONOptions.cpp:52-299", "xolotl/options/src/ConfOptions.cpp:28-339", "xolotl/options/src/Options.cpp:278-353, 533-549"]}
{"id": "C89", "title": "A state saved and put back through the interface", "statement": "For every solution, every division of the grid into ranks and every later solution: the vectors a driving program takes from an instance hold, for each point of the rank and in order of the index, the values above the threshold (all of them without grid), and putting them back succeeds, writes no other point, gives back every saved value and the temperature the network uses, the times, the local xenon rates and the fluence; the coupled run rebuilds the same concentrations from them.", "quantifier": "for all solutions, later solutions, grids, ranks, networks, widths of the index type, and for all vectors handed in", "why_tests_cant": "A test repeats a step of one small case on one rank with one temperature; values that appear after the state was saved, temperatures that changed in between, or pulses in the flux need particular histories.", "anchors": ["xolotl/solver/src/handler/PetscSolver0DHandler.cpp:171-247", "xolotl/solver/src/handler/PetscSolver1DHandler.cpp:643-751", "xolotl/solver/src/handler/PetscSolver2DHandler.cpp:674-790", "xolotl/solver/src/handler/PetscSolver3DHandler.cpp:745-870", "xolotl/interface/src/XolotlInterface.cpp:199-302", "xolotl/solver/include/xolotl/solver/handler/SolverHandler.h:339-499"]}
{"id": "C90", "title": "The matrix handed to the solver is the Jacobian of the right-hand side", "statement": "For every generated network, every division of the work among threads while the pattern is counted, filled and the derivatives are accumulated, and any number of evaluations with changing rates: every derivative a reaction computes has a position in the array of values, no access leaves the array, nothing is carried over from one evaluation to the next, and every entry of the matrix is the derivative of the corresponding component of the right-hand side; what is not in the pattern is zero.", "quantifier": "for all networks, layouts of clusters, rates, concentrations, schedules of all three parallel passes, and sequences of evaluations", "why_tests_cant": "Tests compare a few entries of small ungrouped networks with numbers computed by the same code, run serially; a position that is wrong for one pair of moments, or a value left over from an earlier evaluation, changes only the convergence of the solver.", "anchors": ["xolotl/core/include/xolotl/core/network/detail/impl/ReactionGenerator.tpp:169-280", "xolotl/core/include/xolotl/core/network/detail/ReactionCollection.h:92-100", "xolotl/core/include/xolotl/core/network/impl/ReactionNetwork.tpp:559-586", "xolotl/core/include/xolotl/core/network/impl/ReactionNetwork.tpp:1639-1672", "xolotl/solver/src/handler/PetscSolver0DHandler.cpp:68-82", "xolotl/solver/src/handler/PetscSolver0DHandler.cpp:303-346", "xolotl/solver/src/handler/PetscSolverHandler.cpp:58-115", "xolotl/solver/src/PetscSolver.cpp:529-571"]}
{"id": "C91", "title": "The network described in a checkpoint file", "statement": "For every network, every disk and every sequence of runs, with or without checkpoints, restarts and moves of the surface: writing the network never fails and reading gives back the labels, the bounds and the energies of every cluster under its own index, the bounds are the least and the greatest amounts of its region, and the group determines the network. A run changes no other file than its checkpoint file, and without checkpoints none that exists. Through all checkpoints and loops, a run without a restart file keeps its own network in its checkpoint file; a restart, into the same or into another file, keeps the one of the restart file, so that after any chain of restarts the file describes the network of the first run of the chain, whichever networks the later ones have. A run fails at its start exactly if checkpoints are asked for and the file has no name, or it is not the restart file and that does not exist.", "quantifier": "all networks with fewer than 2^32 clusters, disks, names of files, lists of loops with checkpoints, and all finite chains of runs", "why_tests_cant": "the test writes and reads one network in one process; it does not run the monitors, restart from a file with another network, or name restart files that do not exist", "anchors": ["xolotl/io/src/XFile.cpp:48-59", "xolotl/io/src/XFile.cpp:61-227", "xolotl/core/include/xolotl/core/network/impl/ReactionNetwork.tpp:334-356", "xolotl/core/include/xolotl/core/network/impl/ReactionNetwork.tpp:512-525", "xolotl/solver/src/monitor/PetscMonitor.cpp:157-220", "xolotl/solver/src/monitor/PetscMonitor0D.cpp:247-300", "xolotl/solver/src/monitor/PetscMonitor1D.cpp:665-690", "xolotl/solver/src/handler/SolverHandler.cpp:718-722"]}
{"id": "C92", "title": "The temperature that decides on trap mutation, and the depths given with the temperatures", "statement": "For every grid, every division of it among ranks, every position of the surface and all temperatures: the depths read only existing grid points, are as many as the temperatures and do not decrease; the temperature given to the tables of trap mutation is the one at the first depth greater than 0.01 nm; it exists on every rank; the depth given with a temperature is the depth at which that temperature was taken; and the tables of a grid point do not depend on how the grid is divided.", "quantifier": "all numbers of grid points, all nondecreasing grids, all first points and sizes of ranks, all positions of the surface, all vectors of temperatures, all materials", "why_tests_cant": "The unit tests of trap mutation give one temperature to all grid points and the depth 1 to all entries, so that every index gives the same tables; the other unit tests that call setTemperatures give the depth 1 or the grid itself as depths. The system tests run fixed parameter files, which cannot cover all grids, temperatures and divisions among ranks, and a read after the end of a vector of doubles usually gives some number.", "anchors": ["xolotl/core/include/xolotl/core/network/impl/PSIReactionNetwork.tpp:63-110", "xolotl/solver/src/handler/PetscSolver1DHandler.cpp:369-380", "xolotl/solver/src/handler/PetscSolver2DHandler.cpp:394-405", "xolotl/solver/src/handler/PetscSolver3DHandler.cpp:456-467", "xolotl/solver/src/handler/PetscSolver0DHandler.cpp:160", "xolotl/interface/src/XolotlInterface.cpp:117-131"]}
{"id": "C93", "title": "Cluster data on the host, on the device and in the mirror", "statement": "After every sequence of public calls to a network (setters, setGridSize, setTemperatures, setTime, generation of the clusters, calls for trap mutation, reading of reactions, requests for the mirror), with one memory or separate ones: the structure on the device has the views of the structure on the host; the mirror, if there is one, has the size of the grid, the data by cluster, the temperatures, the diffusion coefficients, the numbers, the flags and the extra data of the device; and it shares no allocation with it, so that writing to the mirror does not change the device.", "quantifier": "all sequences of calls, all values written, all sizes of the grid, one memory or two, networks with and without extra data", "why_tests_cant": "A stale copy shows only after particular orders of calls; tests run a few fixed orders, and with one memory the copies to the device cannot be observed.", "anchors": ["xolotl/core/include/xolotl/core/network/ReactionNetwork.h:300-323", "xolotl/core/include/xolotl/core/network/impl/ReactionNetwork.tpp:19-37", "xolotl/core/include/xolotl/core/network/impl/ReactionNetwork.tpp:157-332", "xolotl/core/include/xolotl/core/network/detail/impl/ClusterData.tpp:38-134", "xolotl/core/src/network/ZrReactionNetwork.cpp:125-139", "xolotl/core/include/xolotl/core/network/impl/PSIReactionNetwork.tpp:49-135"]}
{"id": "C94", "title": "Headers and rows of the text files", "statement": "In every text file that the monitors write during a run, each row has one value for each label of the header, in the order of the labels, and it is the value that the label names (fluence by species, contents, losses at both sides, released atoms; averages of xenon; concentration of the cluster named by the label; instantaneous flux of the cluster; quantities of alloys and zirconium; temperatures by depth); no two columns have the same label; and at the end the file has the header once, followed by the rows of all steps in order, also when the surface moved and the solver looped and when the run continues an earlier one.", "quantifier": "all dimensions, numbers of species, boundary offsets, numbers of reduction factors, sequences of steps and amplitudes, reaction files, networks, grids, numbers of loops and rows", "why_tests_cant": "The system tests compare all numbers of a file with a stored file and skip the header lines, so a label over the wrong column does not show, and a row that is lost in the program is lost in the stored file too.", "anchors": ["xolotl/solver/src/monitor/PetscMonitor0D.cpp:134-229", "xolotl/solver/src/monitor/PetscMonitor0D.cpp:387-452", "xolotl/solver/src/monitor/PetscMonitor0D.cpp:590-658", "xolotl/solver/src/monitor/PetscMonitor1D.cpp:262-292", "xolotl/solver/src/monitor/PetscMonitor1D.cpp:388-628", "xolotl/solver/src/monitor/PetscMonitor1D.cpp:1084-1137", "xolotl/solver/src/monitor/PetscMonitor2D.cpp:328-426", "xolotl/solver/src/monitor/PetscMonitor3D.cpp:343-442", "xolotl/core/src/network/AlloyReactionNetwork.cpp:123-138", "xolotl/core/src/network/ZrReactionNetwork.cpp:224-240"]}
{"id": "C95", "title": "The table of positions of the constant rates", "statement": "For every sub-network, each reaction of the full network adds every constant rate, through its table of positions, at the place of the array that belongs to the row and the column of the rate; no entry is used that was not set for it, no access is outside the array, the tables of different sub-networks do not disturb each other; every constant reaction of the sub-network reads its rates inside the array and gets the sum of the rates of all reactions for its row and column, so that the flux computed from the array is the flux of the reactions that are not inside the sub-network.", "quantifier": "all full networks of productions and dissociations with any number of species axes and grouped clusters, all sub-networks, all concentrations", "why_tests_cant": "No unit test of the network calls these functions, and an entry that was never set is a valid position, so a rate at a wrong place gives another number, not an error.", "anchors": ["xolotl/core/include/xolotl/core/network/impl/Reaction.tpp:1241-1596", "xolotl/core/include/xolotl/core/network/impl/Reaction.tpp:1957-2204", "xolotl/core/include/xolotl/core/network/impl/Reaction.tpp:2697-2868", "xolotl/core/include/xolotl/core/network/impl/Reaction.tpp:3045-3188", "xolotl/core/include/xolotl/core/network/impl/ReactionNetwork.tpp:465-503", "xolotl/core/include/xolotl/core/network/detail/ReactionData.h:91-97", "xolotl/core/include/xolotl/core/network/ConstantReaction.h:86-123", "xolotl/core/include/xolotl/core/network/ConstantReaction.h:354-398", "xolotl/interface/src/XolotlInterface.cpp:442-510"]}
{"id": "C96", "title": "The initial state", "statement": "At a first start every grid point has the temperature of the handler at its position and time 0; the grid points between the boundaries, which are those at which the right-hand side is computed, have the concentrations given by the options (the last one given for a cluster) and 0 for all other degrees of freedom, the others have 0. At a restart every grid point has the values of the file and 0 for those that are not in it, whatever the options say; the vector of temperatures has those of the file. The vector has two entries more than the rank has grid points, however often the state is initialised, and the depths of its entries only read the grid. Grid points of other ranks are not touched.", "quantifier": "all dimensions, grids, boundary offsets, surfaces, partitions, temperature handlers, lists of initial concentrations, restart files and earlier contents of the vectors", "why_tests_cant": "No unit test calls initializeConcentration; the system tests compare final contents of single runs, mostly with free surfaces, none initialises the state twice in three dimensions.", "anchors": ["xolotl/solver/src/handler/PetscSolver0DHandler.cpp:91-169", "xolotl/solver/src/handler/PetscSolver1DHandler.cpp:263-386", "xolotl/solver/src/handler/PetscSolver1DHandler.cpp:971-986", "xolotl/solver/src/handler/PetscSolver2DHandler.cpp:281-411", "xolotl/solver/src/handler/PetscSolver2DHandler.cpp:1054-1068", "xolotl/solver/src/handler/PetscSolver3DHandler.cpp:339-473", "xolotl/solver/src/handler/PetscSolver3DHandler.cpp:1172-1188"]}
{"id": "C97", "title": "The bursting event on several ranks and in all dimensions", "statement": "Every grid point below the surface is tested once per step, by the rank that owns it. It bursts if its bubble is larger than the distance to the surface or its probability is above the number drawn for it; a point without helium does not burst. All ranks agree whether the event happens: it does if a point bursts on any of them. After it, the gas is gone at the points that burst and all other points are unchanged, on every rank, and the account of released gas grows by the number of atoms at these points times the widths used for the retained amount.", "quantifier": "all dimensions, grids, surfaces, offsets, partitions among any number of ranks, sequences of random numbers, helium densities, networks, concentrations and earlier lists", "why_tests_cant": "No unit test calls the event functions; the system tests with bursting run in one dimension only, and what single ranks list or read is not observed.", "anchors": ["xolotl/solver/src/monitor/PetscMonitor1D.cpp:1747-1821", "xolotl/solver/src/monitor/PetscMonitor1D.cpp:1875-1913", "xolotl/solver/src/monitor/PetscMonitor2D.cpp:1498-1580", "xolotl/solver/src/monitor/PetscMonitor2D.cpp:1626-1654", "xolotl/solver/src/monitor/PetscMonitor3D.cpp:1554-1648", "xolotl/solver/src/monitor/PetscMonitor3D.cpp:1697-1723"]}
{"id": "C98", "title": "With -snes_mf_operator the matrix is the diagonal of the Jacobian", "statement": "If the arguments for PETSc hold the word -snes_mf_operator, the coordinates given to PETSc are exactly the diagonal, each once; for every generated network, every schedule of the threads and every sequence of rates each update has a position in the array of values, no access leaves the array, every entry off the diagonal is zero, and every entry on the diagonal is the derivative of the component of the right-hand side by its own concentration.", "quantifier": "all networks of iron, fuel, tungsten, zirconium and alloys, layouts of clusters, rates, concentrations and schedules of the three parallel passes", "why_tests_cant": "The one unit test with the option has small networks and compares with numbers from the same code; a diagonal entry that is wrong for one moment only slows the solver down, and an index never set is often in range by chance.", "anchors": ["xolotl/core/include/xolotl/core/network/impl/ReactionNetwork.tpp:55-65", "xolotl/core/include/xolotl/core/network/impl/ReactionNetwork.tpp:559-586", "xolotl/core/include/xolotl/core/network/detail/impl/ReactionGenerator.tpp:184-245", "xolotl/core/include/xolotl/core/network/impl/Reaction.tpp:2633-2695", "xolotl/core/include/xolotl/core/network/impl/Reaction.tpp:3000-3043", "xolotl/solver/src/handler/PetscSolver0DHandler.cpp:303-346"]}
{"id": "C99", "title": "On a grid the matrix given to PETSc is the Jacobian of the right-hand side", "statement": "In one, two and three dimensions one evaluation of the Jacobian writes only inside its array of values and leaves it zero for the next one, and the matrix that PETSc makes of it is, for every local row and every column, the derivative of the right-hand side: temperature, Soret diffusion, diffusion, advection, source and reactions together, in every order of the parallel additions.", "quantifier": "all networks, rates, concentrations, temperatures, grids, positions of the surface, local ranges of points, sets of diffusing and advecting clusters, and orders of the additions", "why_tests_cant": "The unit tests compare the partial derivatives of single handlers and networks; nothing in the tests evaluates the assembled matrix of a grid, and a wrong entry only slows the convergence of the solver down.", "anchors": ["xolotl/solver/src/handler/PetscSolver1DHandler.cpp:818-1025", "xolotl/solver/src/handler/PetscSolver1DHandler.cpp:1066-1330", "xolotl/solver/src/handler/PetscSolver2DHandler.cpp:1008-1104", "xolotl/solver/src/handler/PetscSolver2DHandler.cpp:1148-1415", "xolotl/solver/src/handler/PetscSolver3DHandler.cpp:1118-1226", "xolotl/solver/src/handler/PetscSolver3DHandler.cpp:1426-1570"]}
{"id": "C100", "title": "The temperature that the options ask for", "statement": "For every tempHandler, tempParam and tempFile: a constant temperature is the first parameter everywhere; a gradient is the straight line in the relative depth, strictly between the two parameters below the surface; a profile is the piecewise linear function through the rows of the file; heat and ELM give the bulk temperature at time 0 and the temperature of the solution later, with the flux of the parameter, of the file, or of ELM (period 0.02 s, bounded, without jumps). The temperature in the solution, which goes into the output, is the one that the rates are computed with.", "quantifier": "all options, all contents of files, all grids that increase, all positions of the surface, all places, times and solutions", "why_tests_cant": "The unit tests make the handlers directly with one pair of parameters and one file of well-formed rows; none gives a file to the heat equation, evaluates the ELM flux alone or compares the temperature in the solution with the one of a profile.", "anchors": ["xolotl/core/src/temperature/HeatEquationHandler.cpp:38-144", "xolotl/core/src/temperature/HeatEquationHandler.cpp:483-526", "xolotl/core/src/temperature/ProfileHandler.cpp:42-94", "xolotl/core/src/temperature/GradientHandler.cpp:44-50", "xolotl/solver/src/handler/PetscSolver1DHandler.cpp:853-874", "xolotl/solver/src/monitor/PetscMonitor1D.cpp:2165-2260"]}
{"id": "C101", "title": "The handlers that the options ask for", "statement": "For every material, dimension, list of processes and grain string: both factories know the same materials; the diffusion, advection, flux and Soret handlers are those that the options ask for; the grain string is either turned into one boundary for each pair of letter and location, in order, or refused with an exception; and every boundary that is accepted can be initialised with the network of the material and evaluated on the stencil of the solver.", "quantifier": "all option values, all lists of tokens of the grain string, all dimensions, all conversions of a location", "why_tests_cant": "No test makes a material handler or gives a grain string; the tests of the boundaries call them directly with a tungsten network and a stencil of the size they ask for, not of the size that the solver of the dimension gives.", "anchors": ["xolotl/core/src/material/MaterialHandler.cpp:19-148", "xolotl/core/include/xolotl/core/material/MaterialHandler.h:61-98", "xolotl/factory/include/xolotl/factory/impl/Factory.tpp:27-60", "xolotl/core/src/advection/XGBAdvectionHandler.cpp:109-113", "xolotl/core/src/advection/ZGBAdvectionHandler.cpp:109-113", "xolotl/solver/src/handler/PetscSolver1DHandler.cpp:1006-1010", "xolotl/solver/src/Solver.cpp:13-36"]}
{"id": "C102", "title": "The monitor of the largest cluster", "statement": "For every network, every schedule of the parallel search and every state: the cluster whose concentration is watched is a largest cluster of the network, and the run is stopped exactly if a largest cluster has a concentration above the threshold at some point of the grid, whatever the number of ranks and threads.", "quantifier": "all lists of clusters of the five families of networks, all trees of a parallel reduction, all joins that keep an argument with the larger value, all grids and ranges of the ranks, all concentrations and thresholds", "why_tests_cant": "No test asks a network for its largest cluster or uses -largest_conc; which of several largest clusters is found depends on the threads, and the loops on the species and the loops on the points of the ranks differ between the networks and the dimensions.", "anchors": ["xolotl/core/include/xolotl/core/network/impl/PSIReactionNetwork.tpp:358-387", "xolotl/core/src/network/FeReactionNetwork.cpp:57-79", "xolotl/core/src/network/NEReactionNetwork.cpp:57-79", "xolotl/core/src/network/ZrReactionNetwork.cpp:58-83", "xolotl/core/src/network/AlloyReactionNetwork.cpp:58-81", "xolotl/solver/src/monitor/PetscMonitor0D.cpp:232-245", "xolotl/solver/src/monitor/PetscMonitor0D.cpp:307-338", "xolotl/solver/src/monitor/PetscMonitor1D.cpp:697-736", "xolotl/solver/src/monitor/PetscMonitor2D.cpp:524-564", "xolotl/solver/src/monitor/PetscMonitor3D.cpp:573-614"]}
{"id": "C103", "title": "What the plots and the file of the surface show", "statement": "For every grid, every way the ranks share it and every state: the plots of the planes show at each point of the plane the integral of the first cluster over the other direction; the scatter plot shows for every number of xenon atoms the concentration of the clusters of this size; and a row of surface.txt gives the height of the surface on every line of the grid, with the same meaning in every dimension.", "quantifier": "all grids, steps, numbers of points, concentrations, positions of the surface, all lists of ranks that share the grid, all lists of clusters", "why_tests_cant": "No test runs the plotting monitors or reads surface.txt; the sums depend on how the ranks share the grid, and a plot is an image.", "anchors": ["xolotl/solver/src/monitor/PetscMonitor3D.cpp:1905-2153", "xolotl/solver/src/monitor/PetscMonitor3D.cpp:1453-1471", "xolotl/solver/src/monitor/PetscMonitor3D.cpp:1880-1897", "xolotl/solver/src/monitor/PetscMonitor2D.cpp:1349-1363", "xolotl/solver/src/monitor/PetscMonitor2D.cpp:1885-1899", "xolotl/solver/src/monitor/PetscMonitor1D.cpp:1500-1597", "xolotl/solver/src/monitor/PetscMonitor1D.cpp:1661-1668", "xolotl/solver/src/monitor/PetscMonitor0D.cpp:510-588"]}
{"id": "C104", "title": "What the images of the plots show", "statement": "For every grid, every sharing of it by the ranks and every state: the image of a plane shows at every place the value of the grid point whose interval the place is in; the series plot has one line for each cluster with its concentration at every depth; the scatter plot shows every concentration at the size of its cluster; the mean of the data is defined and lies between the smallest and the largest value.", "quantifier": "all grids, steps, numbers of points, ranks, clusters, concentrations and lists of points", "why_tests_cant": "The tests of the data providers check one list of five points and its mean; those of the plots set and read back a provider; none looks at the axes of CvsXYDataProvider or at what is given to the renderer.", "anchors": ["xolotl/viz/src/dataprovider/CvsXDataProvider.cpp:10-36", "xolotl/viz/src/dataprovider/CvsXYDataProvider.cpp:13-91", "xolotl/viz/src/dataprovider/DataProvider.cpp:10-29", "xolotl/viz/src/standard/plot/SurfacePlot.cpp:58-77", "xolotl/viz/src/standard/plot/SeriesPlot.cpp:85-109", "xolotl/viz/src/standard/plot/ScatterPlot.cpp:58-67", "xolotl/solver/src/monitor/PetscMonitor1D.cpp:2305-2368", "xolotl/solver/src/monitor/PetscMonitor2D.cpp:1954-2014"]}
{"id": "C105", "title": "Rates of re-solution and nucleation, sinks of tungsten and of the alloy", "statement": "For every fission rate, electronic stopping power and radius that are not negative: the rate of re-solution is not negative, bounded, proportional to the fission rate, falls with the radius and does not fall with the stopping power; nucleation makes at most twenty-five bubbles for each fission fragment from two xenon atoms each, and its fluxes mean the same in every unit of time; sinks only take, and those of the alloy prefer interstitials; and the rates in use are always those of the current fission rate.", "quantifier": "all fission rates, stopping powers, radii, concentrations, units of time, diffusion coefficients and sequences of changes of time and temperature", "why_tests_cant": "NENetworkTester compares the fluxes of one network at one fission rate; nucleation reactions are never made by a generator, and the nine fits in the stopping power are tried for the default value only.", "anchors": ["xolotl/core/include/xolotl/core/network/impl/ReSolutionReaction.tpp:148-196", "xolotl/core/include/xolotl/core/network/impl/NucleationReaction.tpp:31-42", "xolotl/core/include/xolotl/core/network/impl/PSIReaction.tpp:221-238", "xolotl/core/include/xolotl/core/network/impl/AlloyReaction.tpp:192-219", "xolotl/core/include/xolotl/core/network/impl/ReactionNetwork.tpp:171-186"]}
{"id": "C106", "title": "State and temperatures after the surface moved", "statement": "After the surface moved in one dimension, for every old and new grid, state, number of ranks and division of the grid: every point of the new vector has the values interpolated at its place and the surface those of the old surface; every rank gives the network, for each of its points and for those of its neighbours, the temperature the vector has there, so that two ranks agree about a point they share.", "quantifier": "all grids, states, numbers of components, initial concentrations, divisions of the grid among ranks, numbers of evaluations afterwards", "why_tests_cant": "No test moves the surface on several processes; the temperatures kept by the ranks are private and a difference of less than a tenth of a degree at a boundary of ranks never shows as an error.", "anchors": ["xolotl/solver/src/handler/PetscSolver1DHandler.cpp:387-584", "xolotl/solver/src/handler/PetscSolver1DHandler.cpp:812-940"]}
{"id": "C107", "title": "Formation energies of the fuel network", "statement": "For every reaction file and network with a cluster for the interstitial, the vacancy, the pair of vacancies and the xenon atom, each of the four formation energies used in the binding energies is the lowest free energy of the states listed for that species, at the temperature at which the rates are computed, and it belongs to the same line as the diffusion coefficient of the species; without a file they are defined as well.", "quantifier": "all files (any number, order and repetition of lines and states), all networks and groupings, all temperatures", "why_tests_cant": "The tests of the fuel network read one file with every line once at one temperature and never compare the energies; a missing or repeated line or a changed temperature is not tried.", "anchors": ["xolotl/core/include/xolotl/core/network/impl/NEReactionNetwork.tpp:48-150", "xolotl/core/include/xolotl/core/network/impl/NEReactionNetwork.tpp:277-304", "xolotl/core/include/xolotl/core/network/detail/ClusterData.h:236-286"]}
{"id": "C108", "title": "Diffusion coefficients and anisotropy of the zirconium network", "statement": "For every sequence of temperatures given to the network and every cluster: the tables are read inside their bounds; a cluster with a migration energy gets, from the last temperature alone, a positive mean coefficient and ratio that stand for its Arrhenius diffusivities along a and c, the mean between the two and growing with the temperature; every other cluster stays at rest; and with these values the rates of all generated reactions and sinks are positive numbers.", "quantifier": "all sequences of temperatures, all clusters and groups, all pairs with a cluster that moves", "why_tests_cant": "The tests of the zirconium network set one temperature and compare sums; dependence on earlier temperatures, the tables' entries for sizes never reached and clusters with an energy but no factor do not show.", "anchors": ["xolotl/core/include/xolotl/core/network/impl/ZrReactionNetwork.tpp:358-433", "xolotl/core/include/xolotl/core/network/detail/impl/ClusterData.tpp:170-187"]}
