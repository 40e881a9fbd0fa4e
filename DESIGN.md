# Formal model of Xolotl in Lean 4: design

## Approach

The C++ sources in `/repo` are modelled function by function as small total Lean functions (`lean/Verif/**`), each definition citing the file and lines it mirrors.
Properties are stated in separate `*Props.lean` files against small independent specifications (finite sums over lattice points, sets of pairs, Mathlib derivatives, integrals, big-step relations …) and proved for all inputs, states and executions.
Next to the theorems stand `example`s that instantiate every hypothesis with concrete data.

* `double` is modelled by exact ordered-field arithmetic (a generic ordered field, `ℝ` where analysis is needed, `ℚ` for computed witnesses).  Rounding, overflow, NaN and infinities are **not** modelled.
* Unsigned C++ integers (`AmountType = uint32_t`, `IdType`, `size_t`) are modelled by `ℕ` where no subtraction below zero can occur, by `ℤ` where the true value is shown to be what the code computes, and by explicit arithmetic modulo `2^32` (or `Option`) where the code relies on, or suffers from, wrap-around.
* Undefined behaviour (out-of-range access, conversion out of range, use of an invalid cluster, failed `assert`) and exceptions are distinct outcomes (`Option.none`, `Except.error`), never a defaulted value.
* Loops that may not terminate are inductive big-step relations; the theorems say for which inputs they have a result.
* Concurrency (Kokkos `parallel_for`, `parallel_reduce`, atomics, MPI ranks) is modelled as an arbitrary interleaving or permutation of the atomic steps performed by each thread or rank, or as a transition system with invariants.
* Where the code does not have a property, the negation is proved with a concrete witness, the largest part that holds is proved under explicit hypotheses, and the fact is listed under *Findings*.

## Trusted base

* The Lean 4.33.0 kernel; the Mathlib definitions used in statements; the axioms `propext`, `Classical.choice`, `Quot.sound` only (see *Axioms*).  No axioms of our own, no `sorry`, no `native_decide`, no `bv_decide`; `decide +kernel` is used for witnesses only, and is checked by the kernel.
* The reading of the C++ code into Lean definitions (each cites lines).
* `plsm` (the spatial subdivision library) is an absent submodule.  Assumed: a `Region` is a half-open integer box, `volume` is the product of the lengths (in `double`; its own wrap-around is not modelled), `mean`, `dispersion`, `isSimplex`, `isOnAxis` (nothing but a positive number of that species) and `getOrigin` are as their names say, `findTileId` returns the tile containing the composition or the invalid index.
* PETSc, HDF5, MPI, Kokkos, Boost and PAPI behave as documented: an atomic addition is atomic, a reduction joins the partial results of a partition, a collective scan computes prefix sums, a written hyperslab reads back the same values, `MPI_Allreduce` with sum, minimum and maximum does that, `MatSetValuesCOO` adds the value at position `i` to the entry announced at position `i`.
* The compiler and the standard library.

## Plan per property

| id | modelled | proof |
|----|----------|-------|
| C01 | the sum functions of MathUtils.h | induction on the length of the range against sums over `Finset.Icc` |
| C02 | `computeOverlap` per-axis double loop, product over axes | cardinality of the set of solutions, bijection |
| C03 | coefficient formulas of `ProductionReaction::computeCoefficients` | lattice sums against the closed forms, uses C01 |
| C04 C05 C06 | flux functions of each reaction type as maps on concentration vectors | algebra and lattice-sum lemmas |
| C07 | list of atomic additions, arbitrary interleaving | `List.Perm` and linearity |
| C08 | partial-derivative functions | `HasDerivAt` of the flux model for every direction |
| C09 C10 | connectivity and partials as lists of (row, column, value) | case analysis on participants |
| C11 C12 | small-step semantics of the compare-and-swap insertion and slot claiming for arbitrary thread pools | inductive invariants |
| C13 C14 | id assignment loops, begin-index tables | induction on lists |
| C15 C16 C17 C18 | `TimeStepper`, step sequences, stop and restart data | induction on steps |
| C19 C20 C21 C22 | constant rates, maps, CSR connectivity, flux hand-over | algebra, list induction |
| C23 C24 C25 C52 | flux handlers | sums over index ranges, list search, measure of the on-time |
| C26 C27 C28 C29 C30 | stencils | field algebra, `HasDerivAt` |
| C31 C32 C33 C54 | grid generation, moving surface, temperature transfer as list functions | induction over pieces and loops |
| C34 C35 C36 | file contents as lists, attributes as a state machine | list algebra, invariants over histories |
| C37 C53 | sparse fill conversion, layout of the Jacobian values | list induction, prefix sums |
| C38 C39 C40 C41 C55 | option handling, tokenizer, comment removal | loop invariants, big-step relations, induction over strings |
| C42 C43 | performance library | state machine, sums over ranks |
| C44 C45 C46 | reaction generators' search loops, reflected regions | interval arithmetic, induction on tilings |
| C47 | trap-mutation tables | case analysis over the finite classes, all real depths and temperatures |
| C48 C49 | bursting, totals | sums over cluster lists, loop invariants |
| C50 | `doInOrder` as message-passing system | invariant, progress, bound on the number of steps |
| C51 | enum sequences | big-step relation, induction on the count |
| C58 | capture and emission rates | symmetry and positivity by cases over cluster kinds, calculus for the binding energies |
| C59 | tables read from a reaction file | induction over the lines, equilibrium identities of exponentials |
| C56 | when checkpoints are written | invariant over the steps, window theorem by induction |
| C62 | line loops on a stream | big-step relations, characterisation by the lines of the text |
| C60 | `getMaxHePerV`, `select`, formation and binding energies of tungsten networks | exact characterisation on compositions, monotonicity for groups, table bounds, violations with witnesses |
| C64 | `select` and `refine` of the fuel, iron, zirconium and alloy generators | exact characterisation on compositions, monotonicity for groups, violations with witnesses |
| C63 | radii, migration energies and diffusion factors of the five generators | laws of volume and area, strict monotonicity, means over groups, exact lists of mobile clusters, violations |
| C57 | `CustomFitFluxHandler` and `PulsedFitFluxHandler` | round trip of the file, conservation of the implanted amount by induction over rows and amplitudes, any order of the loop, definedness, violations |
| C61 | the account of atoms that left (1D monitor), `keepFlux`/`setFlux`, the loops of `PetscSolver::solve`, `updateOutgoingDiffFluxes` | invariant by induction over steps and loops, agreement of processes, discrete balance with the diffusion stencil, violations |
| C65 | `eventFunction`, `postEventFunction`, `checkNegative` of the 1D monitor | decision logic, exactness of thresholds, termination and overrun, balance over a loop, violation over several loops, monotonicity of bursting |
| C66 | the sweep over temperatures in `updateConcentration` and `computeJacobian`, the depths handed to the network, the temperature chosen for trap mutation | counting, invariant over evaluations and processes, exact index, violations |
| C67 | the setters of `Options` for lists, JSON nodes, `initializeHandlers` (seeds, minimum sizes, initial concentrations, safeguards), the start of a new point | exact characterisation of every call as returned, thrown or undefined; both notations agree; violations |
| C68 | `MultiXolotl` (data, rates, loop, destructor, restart files), `outputData`, monitor lines of zirconium and alloy | the line is the header mapped to what its names mean; index-exact description of the rates stored; the file as a function of the schedule of C18; round trip; violations |
| C69 | `refine` of the tungsten and iron generators | case analysis of the answers; regions whose flagged axes hold one amount; consequences together with `select` (C60, C64); violations with witnesses |
| C70 | `eventFunction` and `postEventFunction` of the 2D and 3D monitors, with the change of the grid | loops over unsigned positions with wrap-around and reads outside as outcomes, exact description of growth and erosion, conservation of atoms per line by induction over the lines, violations |
| C71 | attenuation, temperatures and change of the grid line by line in the 2D and 3D solver handlers | reductions over processes as sums of the calls with the same number, sums over a partition of the points, invariants over the lines, violations |
| C72 | sources of defects of fuel, iron, zirconium and alloys, attenuation with the dose, amplitude as a function of time | bounds and monotonicity of the attenuation, pairs, refinement to a polynomial and to sums over the cascade, exact conditions for accesses outside, violations |
| C73 | dispatch of `AlloyReactionGenerator` and `ZrReactionGenerator` over pairs of clusters, dissociations, sinks, factor on the rates of production | exact count of productions and dissociations per product for single and grouped clusters, symmetry, sums of rates of single clusters, violations |
| C74 | `operator()` and `addSinks` of `PSIReactionGenerator`, `FeReactionGenerator` and `NEReactionGenerator`: productions, annihilations, dissociations, re-solution, modified trap mutation, sinks | exact count of every product against the possible results (interstitial axis included), exact conditions of dissociation, emission of single atoms complete, symmetry, conservation with two products, order dependence of modified trap mutation |
| C75 | the loop of `ReactionGenerator` over all pairs, the constructors of `ProductionReaction` and `DissociationReaction` (regions, reflection, dispersions, volumes, moment ids) on top of C74, C03–C08, C21 | whole-network conservation of every gas and of vacancies less interstitials (sinks exactly accounted), any rates, concentrations and interleaving; counterexamples for groups on two axes and for groups of pure vacancies |
| C76 | `NEProductionReaction`, `NESinkReaction` and the binding energies of `NEDissociationReaction` | whole-network conservation with sources and sinks towards equilibrium, derivatives unaffected, the three loops as partial derivatives of one energy over the reals, limits, symmetry |
| C77 | `FeDissociationReaction::computeBindingEnergy`, `FeSinkReaction`, `ZrDissociationReaction::computeBindingEnergy`, capture radii of `ZrReactionNetwork` | monotonicity by concavity over the reals across the fits, limits and where they act, exact condition for the read outside the table, violation at 925 vacancies |
| C78 | `ZrReactionGenerator`, `AlloyReactionGenerator` with the generic reactions, one axis per cluster, sinks | the network of any layout of groups conserves vacancies less interstitials but for the sinks, under the condition that the reflection leaves moments alone; violation without it |
| C79 | `defineMomentIds` applied to the clusters of the assembled networks; index ranges of `computeAllFluxes` and `computeAllPartials` | the ids meet the hypotheses of C75, C76 and C78; all updates and reads inside `getDOF()` |
| C80 | `setGBLocation`, `initGBLocation`, the flux into grain boundaries and the two accounts of `computeXenonRetention` in 1D-3D, the averages | points on one process each; flux = diffusion stencil; accounts agree and equal the Riemann sums; balance in 1D; failures: restart, points set twice, 32-bit indices at 0, temperature gradient, widening grids |
| C81 | `computeHeliumRetention` in 2D and 3D, `updateOutgoingAdvecFluxes`, the diffusion and surface advection of columns with their own surface positions | loss of the computed points for any shape; balance with a flat surface; 2D = 3D with one layer; like columns = 1D; accounts; advection flux; failures: steps, free sides, grain boundaries, stale location |
| C82 | `getTotalVolumeRatio`, `getTotalRatioVariance` and its overload, `getTotalVolumeFraction`, the last columns of `computeXenonRetention` without dimensions | exactly when defined; between the extremes; invariant under scaling; variance laws; columns; failures: groups along another species, the overload, xenon without bubbles |
| C83 | `computeTRIDYN`, `profileTemperature`, `computeAlloy`, `computeAlphaZr`, `addMonitorDataValues`, `writeMonitorDataLine` of alloys and zirconium | every row once by its rank; columns and entries for any distribution of points; average diameters between extremes; failures: temperature of the wrong point in TRIDYN, minimum size zero |
| C84 | registration of monitors in `setup` of the four dimensions, `computeFluence`, `startStop`, `monitorTime`, `monitorLargest`, what a restart takes over | order; every step charged once; contents of checkpoints; restarted run = uninterrupted run; failures: both retentions, none, zero dimensions |
| C85 | `PetscSolver::initialize`, `setTimes`, `solve`, `getConvergenceStatus`, `finalize`, several solvers in one program; `TSSolve` a parameter | ends; chain of loops; own options on top of the stack; status file; answers; objects left; order of finalizing |
| C86 | `TimestepGroup::write*`/`read*`, `startStopImpl` of the monitors, the restart parts of their `setup` and of `createSolverContext`; a group is a list of named objects | names distinct; round trips; exact condition for other options and meshes; second checkpoint fails |
| C87 | The loops of `initializeConcentration` over a new grid, `monitorSeries` in 1D and `monitorSurface` in 2D, as programs of ranks with sends, receives and collective operations; MPI as a transition system with and without messages in flight | confluence of named receives, so one execution speaks for all; invariant for receives from any source; negations with witnesses |
| C88 | `JSONOptions::readParams`, `ConfOptions::readParams`, `createOptions`; conversions of texts, property tree and `program_options` trusted | exact characterisation of a successful read; independence of case, order, unknown and repeated entries; agreement of the two readers |
| C89 | `getConcVector` and `setConcVector` of the four handlers, the getters and setters of `XolotlInterface` for times, local xenon rates and fluence; PETSc's vectors and the rates computed from the temperatures not modelled | exact characterisation of what is handed out and of the state after it is put back, on one rank and on all; when it is defined; what happens to the temperatures and the fluence |
| C90 | the whole path of the derivatives without dimension of space: requests, counting and filling passes, positions, coordinates, accumulation, `MatSetValuesCOO`, reset; composed with the generated networks of C75, C78 and C79; the reduced Jacobian and the rates' change with temperature not modelled | refinement: matrix entry = derivative of the right-hand side, for all schedules and all histories; existence of complete executions; witness for the rows of desorption |
| C91 | `XFile::NetworkGroup`, `XFile::ClusterGroup`, the bounds given by the network, the constructor and `setup` of the monitors, `writeNetwork`, and the sequence of loops and checkpoints of a run; names that differ are different files | round trip and injectivity of the stored network; frame and invariant over chains of runs by induction; witness for a stale network |
| C92 | the loops that fill `depths` before every `setTemperatures`, and the choice of the temperature in `PSIReactionNetwork::updateExtraClusterData`; the copies to the device are not modelled | specification of the search, monotonicity of the depths, which entry each rank takes; witnesses for reads outside and for the dependence on the ranks |
| C93 | `invalidateDataMirror`, `syncClusterDataOnHost`, `copyClusterDataView`, the setters, `setGridSize`, `setTemperatures`, `readReactions` and the calls for trap mutation, on addresses and contents of views; Kokkos views, `DualView` and `create_mirror_view` are trusted to share or copy as documented | invariant over all sequences of calls by induction; witnesses for stale flags and extra data |
| C94 | headers written by `setup` and rows written by the monitors in retentionOut.txt, instantFlux.txt, tempProf.txt, bubble files, Alloy.dat and AlphaZr.dat; when `setup` empties which file; names and numbers are not printed, several processes adding to bursting.txt at once are not modelled | rows equal headers mapped through the meaning of labels; files over all loops by induction; witnesses for lost rows and missing columns |
| C95 | `mapRateEntries`, the accesses of `computeConstantRates` through `_rateEntries`, the zero initialised table and array, `mapRateEntries` and `setRate` of `ConstantReaction`; sinks, nucleation, trap mutation and re-solution are not part of it, one grid point | refinement: accesses through the table against the pairs of `Constant`; array against sums over reactions; composed with C19 and C21; witness for the entry that was never set |
| C96 | first branch of `initializeConcentration` in all dimensions (temperatures, initial concentrations, restart, vector of temperatures), the conditions under which the right-hand side skips a grid point; opening and reading the file, the interpolation in one dimension and the grids of the other handlers are not part of it | loops by induction against a closed description of the state; conditions against each other; round trip with a written file; size of the vector over calls; negations for the reflective surface in one dimension and for a second call in three |
| C97 | the bursting part of `eventFunction` and `postEventFunction` in one, two and three dimensions, on any number of ranks, with the number of random numbers drawn; the test at a point is that of C65, the change of the concentrations that of `updateBurstingConcs` | loops by induction against a closed description of lists and numbers drawn; agreement of the ranks; composition with the theorems on `updateBurstingConcs`; sum over ranks; negations for two dimensions (array read outside of the part of the rank), three dimensions (ranks disagree) and widening grids |
| C98 | the choice of the reduced Jacobian from the arguments for PETSc, the reduced connectivity and the reduced derivatives of a whole network, on the pattern and matrix of C90; an element of `_connEntries` never set is an undefined outcome | exact description of the coordinates; exact deficit of the diagonal; definedness as an equivalence; derivative of the right-hand side by analysis for every kind of network; negations with two clusters in either order |
| C99 | the values of C53 with the array, the stores and the sum made by PETSc, the right-hand side of a point, one dimension with all its terms, two and three dimensions with the heat equation or with grain boundaries across the depth, two dimensions with grain boundaries across y, three with them across y and z | exact sum for every entry; derivative of the whole right-hand side by analysis in every regular row and all columns, for every interleaving; negations at a heated surface and at a reflecting surface |
| C100 | the five temperature handlers made from the options and their files, the temperature used at a point, the rate of the temperature in the solution, the ELM flux | the documented temperature for every option; ELM flux periodic, bounded and continuous at the start of a period; negations for a file with a zero parameter, a line without a number, a profile and the solution, and the end of an ELM period |
| C101 | the two factories of materials and networks, the constructor of the material handler, the grain string, the initialisation and the stencil of the advection handlers | for every list of tokens, when it is accepted, refused or read outside; the handlers made; a run gets through the first evaluation exactly if …; negations for X in one dimension, Z in two, boundaries in other materials, a letter without location, processes that are ignored |
| C102 | the search for the largest cluster of the five families of networks as a parallel reduction, the loops of `monitorLargest` in all dimensions | for every tree of the reduction, the cluster found has the largest amount of the counted species, none is found exactly if …; the run stops exactly if …; negations for perfect loops, interstitials, several largest clusters, groups |
| C103 | the data points of the plots of the planes XY and XZ and of the scatter plot, the rows of surface.txt | for every sharing of the grid the value is the sum over the other direction; the points and their order; the rows in two and three dimensions; negations: no integral, no size distribution with vacancies, two meanings of the height |
| C104 | the data providers and the data sets that the surface, series and scatter plots give to VTK-m (whose data set builders are trusted base) | every cell of the image of a plane for all grids and sharings, the lines of the series, the mean; negations: the image is shifted by half an interval, the scatter plot does not use the sizes, one row has no height |
| C105 | `computeRate` of re-solution and of nucleation, sinks of the PSI and alloy networks, when the fission rate reaches the rates | sign, bound, dependence on radius, stopping power and fission rate for all values; negations: the flux of nucleation below the threshold has no unit of time, a changed fission rate is not used at once |
| C106 | the second branch of `initializeConcentration` in one dimension after the interpolation: temperatures of the ranks, values written at the first two points, scatter of the surface | the vector component by component; own points, surface and points of the neighbours; invariance over the evaluations that follow; violations |
| C107 | the lines about clusters in `NEReactionNetwork::readReactions` with the map of clusters, and the four lookups of formation energies; the lines about reactions are C59 | exactly when defined; the value said through the first line of the cluster; use in the binding energy of a void; violations |
| C108 | `ZrClusterUpdater::updateDiffusionCoefficient` with its tables and the loop of `updateDiffusionCoefficients`, for one cluster at one point | the two directions recovered from mean and ratio; independence of earlier temperatures; monotony; the assumptions of C58 hold; violations |

## Modelled code

The definitions of each module cite the lines they model; simplifications are stated there.

| module | source files | definitions |
|---|---|---|
| Flux/Custom | CustomFitFluxHandler.h, FluxHandler.cpp, PulsedFitFluxHandler.h | 13 |
| Flux/Defects | AlloyFitFluxHandler.h, AlloySRIMData.h, AlphaZrFitFluxHandler.h, FeFitFluxHandler.h, FluxHandler.cpp, FuelFitFluxHandler.h | 24 |
| Flux/Implanted | AlloyFitFluxHandler.h, AlphaZrFitFluxHandler.h | 8 |
| Flux/Profile | CustomFitFluxHandler.h, FluxHandler.cpp, MathUtils.h, PulsedFitFluxHandler.h, W100FitFluxHandler.h, W110FitFluxHandler.h, W111FitFluxHandler.h, W211FitFluxHandler.h | 23 |
| IO/Contents | HDF5FileAttribute.h, PetscMonitor.cpp, PetscMonitor0D.cpp, PetscMonitor1D.cpp, PetscMonitor2D.cpp, PetscMonitor3D.cpp, PetscSolver1DHandler.cpp, PetscSolver2DHandler.cpp, PetscSolver3DHandler.cpp, SolverHandler.cpp, XFile.cpp, XFile.h | 44 |
| IO/NetFile | HDF5File.cpp, HDF5FileGroup.cpp, PetscMonitor.cpp, PetscMonitor0D.cpp, PetscMonitor1D.cpp, PetscMonitor2D.cpp, PetscMonitor3D.cpp, PetscSolver.cpp, ReactionNetwork.tpp, SolverHandler.cpp, XFile.cpp | 24 |
| IO/Ragged | HDF5FileDataSet.h | 16 |
| IO/Sparse | PetscMonitor1D.cpp, PetscMonitor2D.cpp, PetscSolver0DHandler.cpp, PetscSolver1DHandler.cpp, PetscSolver2DHandler.cpp | 6 |
| IO/Steps | XFile.cpp | 11 |
| Network/Anisotropy | ClusterData.tpp, ReactionNetwork.tpp, ZrReactionNetwork.tpp, ZrTraits.h | 8 |
| Network/Assemble | FeTraits.h, NETraits.h, PSITraits.h, ReSolutionReaction.tpp, Reaction.tpp, ReactionGenerator.tpp, ReactionUtility.h, SinkReaction.h | 14 |
| Network/Averages | Constants.h, PetscMonitor0D.cpp, ReactionNetwork.h, ReactionNetwork.tpp | 10 |
| Network/Binding | FeReaction.tpp, MathUtils.h, ZrReaction.tpp, ZrReactionNetwork.cpp | 14 |
| Network/Bursting | PSIReactionNetwork.tpp, PSITraits.h, PetscMonitor1D.cpp | 16 |
| Network/Coefs | Reaction.tpp | 33 |
| Network/CoefsAux | Reaction.tpp | 1 |
| Network/Connectivity | ClusterConnectivity.h, ReactionGenerator.tpp | 12 |
| Network/ConstNet | ConstantReaction.h, ReactionCollection.h, ReactionGenerator.tpp, ReactionNetwork.tpp | 4 |
| Network/Constant | AlloyReactionNetwork.tpp, ConstantReaction.h, Reaction.tpp, ReactionData.h, ReactionNetwork.tpp, ZrReactionNetwork.tpp | 35 |
| Network/ConstantOther | ConstantReaction.h, NucleationReaction.h, ReSolutionReaction.h, ReSolutionReaction.tpp, Reaction.h, ReactionNetwork.tpp, SinkReaction.h, TrapMutationReaction.h, TrapMutationReaction.tpp | 8 |
| Network/Dispatch | FeReactionNetwork.tpp, NEReactionNetwork.tpp, PSIReactionNetwork.tpp | 23 |
| Network/Dissociation | ReSolutionReaction.tpp, Reaction.tpp | 19 |
| Network/DofIds | AlloyTraits.h, ClusterData.tpp, FeTraits.h, PSITraits.h, ReactionNetwork.tpp, SpeciesEnumSequence.h, ZrTraits.h | 11 |
| Network/Formation | ClusterData.h, NEReactionNetwork.tpp | 5 |
| Network/Fuel | NEReaction.tpp, Reaction.tpp | 9 |
| Network/Generator | ClusterSet.h, ReactionGenerator.tpp, SinkReactionGenerator.tpp | 5 |
| Network/Irradiation | AlloyReaction.tpp, Constants.h, NucleationReaction.tpp, PSIReaction.tpp, ReSolutionReaction.tpp, ReactionNetwork.tpp, SinkReaction.tpp | 12 |
| Network/Largest | AlloyReactionNetwork.cpp, AlloyTraits.h, FeReactionNetwork.cpp, FeTraits.h, NEReactionNetwork.cpp, NETraits.h, PSIReactionNetwork.tpp, PSITraits.h, PetscMonitor.h, PetscMonitor0D.cpp, PetscMonitor1D.cpp, PetscMonitor2D.cpp, PetscMonitor3D.cpp, ZrReactionNetwork.cpp, ZrTraits.h | 12 |
| Network/LoopNet | Reaction.tpp, ReactionGenerator.tpp, ReactionUtility.h, SpeciesEnumSequence.h | 12 |
| Network/Mirror | ClusterData.h, ClusterData.tpp, NEReactionNetwork.tpp, NETraits.h, PSIReactionNetwork.tpp, ReactionNetwork.h, ReactionNetwork.tpp, TrapMutationClusterData.tpp, ZrReactionNetwork.cpp, ZrTraits.h | 19 |
| Network/Mutate | PSIReactionNetwork.tpp, PSITrapMutation.h, ReactionGenerator.tpp, TrapMutationReaction.tpp | 6 |
| Network/NeFile | NEReaction.h, NEReaction.tpp, NEReactionNetwork.tpp, NETraits.h, Reaction.tpp | 23 |
| Network/Numbering | AlloyTraits.h, ClusterData.tpp, FeTraits.h, MultiElementCollection.h, PSITraits.h, ReactionNetwork.tpp, SpeciesEnumSequence.h, ZrTraits.h | 16 |
| Network/Pairs | AlloyReaction.tpp, AlloyReactionNetwork.tpp, ZrReactionNetwork.tpp | 19 |
| Network/Pattern | PetscSolver.cpp, PetscSolver0DHandler.cpp, PetscSolverHandler.cpp, Reaction.h, Reaction.tpp, ReactionCollection.h, ReactionGenerator.tpp, ReactionNetwork.tpp | 11 |
| Network/Production | Reaction.tpp | 22 |
| Network/ProductionConservation | Reaction.tpp | 11 |
| Network/Products | AlloyReactionNetwork.tpp, FeReactionNetwork.tpp, NEReactionNetwork.tpp, PSIReactionNetwork.tpp, ZrReactionNetwork.tpp | 25 |
| Network/PsiRefine | FeClusterGenerator.tpp, PSIClusterGenerator.h, PSIClusterGenerator.tpp | 21 |
| Network/PsiSelect | MathUtils.h, PSIClusterGenerator.h, PSIClusterGenerator.tpp, PSIReaction.tpp | 39 |
| Network/Radius | AlloyClusterGenerator.tpp, FeClusterGenerator.tpp, NEClusterGenerator.tpp, PSIClusterGenerator.tpp, ZrClusterGenerator.tpp | 35 |
| Network/RateEntries | ConstantReaction.h, Reaction.h, Reaction.tpp, ReactionData.h, ReactionNetwork.tpp, XolotlInterface.cpp | 32 |
| Network/Rates | AlloyReaction.tpp, AlloyTraits.h, Constants.h, FeReaction.tpp, PSIReaction.tpp, Reaction.tpp, ReactionNetwork.tpp, ZrClusterGenerator.tpp, ZrReaction.tpp, ZrTraits.h | 27 |
| Network/Reduced | Array.h, Reaction.h, Reaction.tpp, ReactionGenerator.tpp, ReactionNetwork.tpp | 6 |
| Network/Reflect | ReactionUtility.h | 9 |
| Network/Region | Reaction.tpp, ReactionUtility.h | 11 |
| Network/Select | AlloyClusterGenerator.h, AlloyClusterGenerator.tpp, FeClusterGenerator.h, FeClusterGenerator.tpp, NEClusterGenerator.h, NEClusterGenerator.tpp, ZrClusterGenerator.h, ZrClusterGenerator.tpp | 14 |
| Network/Simple | NucleationReaction.tpp, PSIReactionNetwork.tpp, Reaction.tpp, SinkReaction.h, SinkReaction.tpp, TrapMutationClusterData.h, TrapMutationReaction.h, TrapMutationReaction.tpp | 21 |
| Network/Sizes | AlloyNetworkHandler.cpp, FeNetworkHandler.cpp, IReactionNetwork.h, NENetworkHandler.cpp, PSINetworkHandler.cpp, ZrNetworkHandler.cpp | 13 |
| Network/Species | AlloyTraits.h, EnumSequence.h, FeTraits.h, NETraits.h, PSITraits.h, SpeciesEnumSequence.h, SpeciesId.h, ZrTraits.h | 19 |
| Network/SubInstance | MultiXolotl.cpp, Reaction.h, ReactionNetwork.tpp, XolotlInterface.cpp | 16 |
| Network/Totals | ReactionNetwork.tpp | 14 |
| Network/TrapMutationTables | PSITrapMutation.h | 4 |
| Network/Updates | Reaction.tpp | 4 |
| Network/Whole | MultiElementCollection.h, NucleationReaction.h, PSIReactionNetwork.tpp, ReSolutionReaction.tpp, ReactionNetwork.tpp, SinkReaction.h, TrapMutationReaction.tpp | 8 |
| Options/Comments | JSONOptions.cpp | 4 |
| Options/Lists | JSONOptions.cpp, Options.cpp, Options.h, PetscSolver0DHandler.cpp, PetscSolver1DHandler.cpp, ReactionNetwork.tpp, SolverHandler.cpp, config.h | 30 |
| Options/Material | AlloyNetworkHandler.cpp, DummyAdvectionHandler.h, Factory.tpp, FeNetworkHandler.cpp, GBAdvectionHandler.cpp, MaterialHandler.cpp, MaterialHandler.h, NENetworkHandler.cpp, PSINetworkHandler.cpp, PetscSolver.cpp, PetscSolver1DHandler.cpp, PetscSolver2DHandler.cpp, PetscSolver3DHandler.cpp, Solver.cpp, SurfaceAdvectionHandler.cpp, TungstenAdvectionHandler.cpp, W100MaterialHandler.h, W110MaterialHandler.h, W111MaterialHandler.h, W211MaterialHandler.h, XGBAdvectionHandler.cpp, YGBAdvectionHandler.cpp, ZGBAdvectionHandler.cpp, ZrNetworkHandler.cpp | 18 |
| Options/NetParams | AlloySubOptions.cpp, AlphaZrSubOptions.cpp, Options.cpp | 4 |
| Options/Processes | Options.cpp | 10 |
| Options/Readers | ConfOptions.cpp, JSONOptions.cpp, Options.cpp | 32 |
| Perf/Stats | PerfHandler.cpp, PerfObjStatistics.h | 18 |
| Perf/Timer | EventCounter.h, OSTimer.cpp, OSTimer.h, ScopedTimer.h | 11 |
| Solver/Across | PetscSolver2DHandler.cpp, YGBAdvectionHandler.cpp | 6 |
| Solver/Boundary | PetscSolver2DHandler.cpp, PetscSolver3DHandler.cpp, XGBAdvectionHandler.cpp | 11 |
| Solver/Burst | PetscMonitor1D.cpp, PetscMonitor2D.cpp, PetscMonitor3D.cpp | 19 |
| Solver/Carried | PetscSolver1DHandler.cpp | 8 |
| Solver/Columns | Diffusion2DHandler.cpp, Diffusion3DHandler.cpp, PetscMonitor1D.cpp, PetscMonitor2D.cpp, PetscMonitor3D.cpp, PetscSolver2DHandler.cpp, PetscSolver3DHandler.cpp, ReactionNetwork.tpp, SolverHandler.h, SurfaceAdvectionHandler.cpp | 19 |
| Solver/Coo | Diffusion1DHandler.cpp, PetscSolver1DHandler.cpp, PetscSolver2DHandler.cpp, SoretDiffusionHandler.cpp, SurfaceAdvectionHandler.cpp, YGBAdvectionHandler.cpp | 22 |
| Solver/Coupled | AlloyReactionNetwork.cpp, AlloyReactionNetwork.h, MathUtils.h, MultiXolotl.cpp, PetscMonitor0D.cpp, PetscMonitor1D.cpp, ReactionNetwork.h, TimeStepper.cpp, XolotlInterface.cpp, ZrReactionNetwork.cpp, ZrReactionNetwork.h | 35 |
| Solver/Depths | PSIReactionNetwork.tpp, PetscSolver0DHandler.cpp, PetscSolver1DHandler.cpp, PetscSolver2DHandler.cpp, PetscSolver3DHandler.cpp, XolotlInterface.cpp | 7 |
| Solver/Drawn | CvsXDataProvider.cpp, CvsXYDataProvider.cpp, DataProvider.cpp, PetscMonitor1D.cpp, PetscMonitor2D.cpp, ScatterPlot.cpp, SeriesPlot.cpp, SurfacePlot.cpp | 15 |
| Solver/Events | PetscMonitor.h, PetscMonitor1D.cpp, PetscMonitor1D.h, PetscSolver.cpp | 8 |
| Solver/Exchange | PetscSolver.cpp, PetscSolver0DHandler.cpp, PetscSolver1DHandler.cpp, PetscSolver2DHandler.cpp, PetscSolver3DHandler.cpp, SolverHandler.h, XolotlInterface.cpp, config.h | 20 |
| Solver/FillMap | IReactionNetwork.h, PetscSolverHandler.cpp, ReactionNetwork.tpp | 9 |
| Solver/Grain | PetscMonitor.cpp, PetscMonitor1D.cpp, PetscMonitor2D.cpp, PetscMonitor3D.cpp, PetscSolver1DHandler.cpp, PetscSolver2DHandler.cpp, PetscSolver3DHandler.cpp, ReactionNetwork.tpp, SolverHandler.cpp, SolverHandler.h, XolotlInterface.cpp, config.h | 16 |
| Solver/Grid | SolverHandler.cpp | 11 |
| Solver/HeatMatrix | HeatEquationHandler.cpp, PetscSolver2DHandler.cpp, PetscSolver3DHandler.cpp | 9 |
| Solver/Initial | PetscSolver0DHandler.cpp, PetscSolver1DHandler.cpp, PetscSolver2DHandler.cpp, PetscSolver3DHandler.cpp, SolverHandler.cpp, SolverHandler.h, config.h | 16 |
| Solver/Lines | PetscSolver2DHandler.cpp, PetscSolver2DHandler.h, PetscSolver3DHandler.cpp, SolverHandler.h | 15 |
| Solver/Loop | PetscSolver.cpp, PetscSolver.h, PetscSolver0DHandler.cpp, PetscSolver1DHandler.cpp, PetscSolver2DHandler.cpp, PetscSolver3DHandler.cpp | 19 |
| Solver/Matrix | Diffusion1DHandler.cpp, PetscSolver.cpp, PetscSolver1DHandler.cpp, PetscSolver2DHandler.cpp, PetscSolver3DHandler.cpp, PetscSolverHandler.cpp, SoretDiffusionHandler.cpp, SurfaceAdvectionHandler.cpp, SurfaceAdvectionHandler.h, TemperatureHandler.h, YGBAdvectionHandler.cpp | 39 |
| Solver/Messages | PetscMonitor1D.cpp, PetscMonitor2D.cpp, PetscSolver1DHandler.cpp, PetscSolver2DHandler.cpp, PetscSolver3DHandler.cpp | 20 |
| Solver/Monitors | FluxHandler.cpp, PetscMonitor.cpp, PetscMonitor.h, PetscMonitor0D.cpp, PetscMonitor1D.cpp, PetscMonitor2D.cpp, PetscMonitor3D.cpp, SolverHandler.cpp | 11 |
| Solver/Move | PetscMonitor1D.cpp, PetscSolver1DHandler.cpp, PetscSolverHandler.h, SolverHandler.cpp | 14 |
| Solver/Plots | PetscMonitor0D.cpp, PetscMonitor1D.cpp, PetscMonitor2D.cpp, PetscMonitor3D.cpp | 11 |
| Solver/Retention | Diffusion1DHandler.cpp, PetscMonitor.cpp, PetscMonitor.h, PetscMonitor1D.cpp, PetscMonitor1D.h, PetscMonitor2D.h, PetscMonitor3D.h, PetscSolver.cpp, ReactionNetwork.tpp | 14 |
| Solver/Stride | PetscMonitor.cpp, PetscMonitor.h, PetscMonitor0D.cpp, PetscMonitor1D.cpp, PetscMonitor2D.cpp, PetscMonitor3D.cpp, PetscSolver.cpp, SolverHandler.cpp | 7 |
| Solver/Surface | PetscMonitor2D.cpp, PetscMonitor3D.cpp, PetscSolver3DHandler.h, config.h | 19 |
| Solver/Sweep | PSIReactionNetwork.tpp, PetscSolver1DHandler.cpp, PetscSolver2DHandler.cpp | 10 |
| Solver/TempTransfer | SolverHandler.cpp | 7 |
| Solver/TextFiles | AlloyReactionNetwork.cpp, CustomFitFluxHandler.h, FluxHandler.cpp, PetscMonitor0D.cpp, PetscMonitor1D.cpp, PetscMonitor2D.cpp, PetscMonitor3D.cpp, PetscSolver.cpp, PulsedFitFluxHandler.h, ReactionNetwork.h, XolotlInterface.cpp, ZrReactionNetwork.cpp | 31 |
| Solver/Walls | PetscSolver3DHandler.cpp, YGBAdvectionHandler.cpp, ZGBAdvectionHandler.cpp | 9 |
| Solver/Written | AlloyReactionNetwork.cpp, PetscMonitor1D.cpp, ZrReactionNetwork.cpp | 17 |
| Transport/Advection | SurfaceAdvectionHandler.cpp, XGBAdvectionHandler.cpp, XGBAdvectionHandler.h, YGBAdvectionHandler.cpp, YGBAdvectionHandler.h, ZGBAdvectionHandler.cpp, ZGBAdvectionHandler.h | 11 |
| Transport/Heat | HeatEquationHandler.cpp | 17 |
| Transport/Mask | AdvectionHandler.h, Diffusion1DHandler.cpp, Diffusion2DHandler.cpp, Diffusion3DHandler.cpp, IAdvectionHandler.h, PetscSolver1DHandler.cpp, SurfaceAdvectionHandler.cpp | 16 |
| Transport/Soret | SoretDiffusionHandler.cpp | 4 |
| Transport/Stencil | Diffusion1DHandler.cpp, Diffusion2DHandler.cpp, Diffusion3DHandler.cpp, DiffusionHandler.cpp, MathUtils.h, PetscSolver1DHandler.cpp | 11 |
| Transport/Temperature | ConfOptions.cpp, ConstantHandler.cpp, ConstantHandler.h, Factory.tpp, GradientHandler.cpp, HeatEquationHandler.cpp, HeatEquationHandler.h, MathUtils.h, Options.cpp, Options.h, PetscSolver0DHandler.cpp, PetscSolver1DHandler.cpp, PetscSolver2DHandler.cpp, PetscSolver3DHandler.cpp, ProfileHandler.cpp, TemperatureHandler.h, TemperatureHandlerFactory.h | 15 |
| Util/InOrder | DoInOrder.h | 4 |
| Util/Interp | FluxHandler.cpp, HeatEquationHandler.cpp, ProfileHandler.cpp | 3 |
| Util/LineLoop | CustomFitFluxHandler.h, FuelFitFluxHandler.h, NEReactionNetwork.tpp, PetscMonitor0D.cpp | 8 |
| Util/MathSums | MathUtils.h | 8 |
| Util/Stepping | GrowthFactorStepSequence.cpp, LinearStepSequence.cpp, MultiXolotl.cpp, StepSequence.h, TimeStepper.cpp | 22 |
| Util/Tokenizer | Tokenizer.h | 9 |

## Parts of the code that are not modelled

* `plsm` (absent), the network construction by subdivision (only what the subdivided result must satisfy is used), `viz`, `factory` registration, the command line and JSON front end except the functions listed above, string formatting and logging, `PAPI` access.
* Rounding, overflow and NaN of `double`; wrap-around of `Region::volume`; the text precision of times in stop files.
* Physical rate formulas (diffusion factors, formation and binding energies, reaction radii, sink strengths); they are parameters of the reactions.
* The PETSc monitors other than the bursting account and the moving-surface arithmetic; the random choice of burst positions; the solver loops themselves.
* The two- and three-dimensional variants of solver code where they only repeat the one-dimensional one (stencils and masks are modelled in all dimensions, the value layout in one dimension with the advection preallocation of the others).
* Constant rates of sinks, re-solution, nucleation and trap mutation; `getTotalVolumeRatio` and `getTotalRatioVariance`.
* The conservation theorems (C04, C05, C07) are about the reflected axes used by the reaction code.  They give conservation on the original axes when all participants of a reaction are projected the same way; the code reverses the sign of first moments otherwise (finding B21).

## Findings

Places where the code does not do what the property asks, or where its behaviour is undefined.  The theorem that proves it is in parentheses.

* **B1** Production, second product without a first: `ProductionReaction::computeFlux` numbers the products that exist with a compacted counter while coefficients and partials use the fixed positions; with only the second product present flux and Jacobian disagree (`production_jacobian_second_product_only`).
* **B2** Constant rates of production: the term for the second reactant inside the sub-network is wrong with two or more moment axes (`second_in_wrong`).
* **B3** Reduced partials of dissociation: the guard of the second product tests the first one: the diagonal is missed, or an entry is written that was never set (`dissociation_reduced_misses_diagonal`, `dissociation_reduced_unset_entry`).
* **B4** Constant rates of dissociation: the moment slot of the first product is wrong (`diss_moment_wrong`).
* **B5** Constant rates: both reactants inside and the product outside: nothing is recorded (`both_in_lost`).
* **B6** Step sequences: `at` ignores the initial step; values can exceed the bound or shrink for ever; second restarts differ while the step still grows (`at_ignores_initialStep`, `growth_first_exceeds`, `shrinking_loop_diverges`, `ramp_zero_steps`, `second_restart_differs`).
* **B7** Constant rates of trap mutation: the helium-vacancy product receives nothing, helium inside is not consumed, and the entry is looked up in a column that a sub-network does not have (`tm_lost`, `tm_gap`, `tm_position_invalid`). Re-solution announces no entries and nucleation has no constant rates (`resol_position_invalid`, `nuc_lost`).
* **B8** Alloy loop products: Perfect + Faulted and Perfect + Void never visit the largest products (`alloyPF_largest_missing`, `alloyPF_straddle_empty`, `alloyPF_negative_unreached`).
* **B9** Bursting: grouped vacancy clusters lose their content, first moments along the vacancy axis are lost, grouped interstitials use the invalid cluster (`grouped_vacancies_lost`, `moment_lost`, `grouped_interstitials_undefined`).
* **B10** General product bounds: a negative lower net size wraps, so nothing is selected (`general_negative_none`, `general_straddle_none`, `general_straddle_witness`).
* **B11** Sub-instances: dense vectors are sized by the number of clusters, so first moments are lost; a bound missing in the full network shifts the map (`moments_lost`, `moment_lost_witness`, `missing_bound_shifts`).
* **B12** Reduced partials of constant reactions write off-diagonal entries, and entries never set, with two moment axes (`reduced_off_diagonal`).
* **B13** PSI trap mutation: interstitial clusters in the special case (read, not modelled).
* **B14** Sink masks: positions and columns off by the ghost or by the advecting order; writes outside the mask (`mask1_wrong_point`, `mask1_wrong_column`, `mask1_out_of_bounds`, `mask2_last_column`).
* **B15** Custom fit profile: the time profile of the custom handler is undefined because its values are cleared and its times are not (`cleared_undefined`).
* **B16** `getImplantedFlux`: a cluster listed more than once is handed only its first source (`repeated_cluster_loses`, `lost_amount`, `alloy_repeated_stops`).
* **B17** Heat equation: surface and bulk fluxes multiply where the derivative divides; interface points report the surface formula (`surface_wrong`, `bulk_flux_mid`, `interface_wrong`).
* **B18** Checkpoint lookup: the control step is ignored; adding a step twice uses a null pointer or updates the wrong group (`lookup_ignores_control`, `repeat_undefined`, `wrong_group_updated`).
* **B19** Network sizes: width 0 or 1 never ends; the number of interstitials wraps in PSI (`loop_ends`, `adapt_wrap`, `psi_wrap`, `psi_no_width`).
* **B20** Depth grids and transport: Chebyshev grids have two intervals of width zero; the norm of a profile can be stale; diffusion with a varying coefficient is not conservative; Soret partials are not the derivative for skipped concentrations (`cheby_zero_width`, `stale_norm`, `variable_not_conserved`, `skipped_wrong`).
* **B21** Reflected regions: projecting a group of the other kind flips the sign of its first moment, which the flux code ignores (`reflection_flips_moment`).
* **B22** Production coefficients: with two or more grouped axes some coefficients are zero instead of the average (`coefs_lost_two_axes`).
* **B23** Reactions without product: use an overlap of 1 (`nOverlap_no_product`).
* **B24** Trap mutation and sinks: ignore group volumes; first moments stay behind in sinks (`sink_leaves_moment`).
* **B25** Trap-mutation Jacobian: wrong when a desorption factor applies (`trapMutation_jacobian_desorption`, `desorption_missing`).
* **B26** Left side rate: half of the true rate for reactions of a cluster with itself (`leftSideRate_self_reaction`).
* **B27** Trap-mutation generator: stores an unchecked interstitial id (`addTrapMutations_invalid_interstitial`).
* **B28** Reaction collections: `setView` with more reactions than before loses the last ones (`resize_grow_loses`).
* **B29** Degree-of-freedom numbering: leaves a hole when two grouped species share a slot (`dof_hole_two_grouped_one_slot`).
* **B30** Species: `isVacancy` is false for Basal in Zr; the range without interstitials misses Basal, Void and Faulted (`isVacancy_basal`, `noI_misses`).
* **B31** PSI trap-mutation search: accepts unbalanced products in its second search (`tmSearch_unbalanced`).
* **B32** Alloy I + Faulted or Void: drops the reaction when the product is missing (read).
* **B33** Alloy V + loop: duplicates products when grouping starts in the small clusters (`alloyVL_duplicates`).
* **B34** General search: can accept interstitial clusters (read).
* **B35** AlphaZr flux: what is handed over is never used (`zr_set_ineffective`).
* **B36** W110 and W111: the fits are negative in part of their range (`w110_w111_negative`, `w110_negative_flux`).
* **B37** Flux without a grid: a time profile accesses outside the vectors (`recompute_no_grid`).
* **B38** Custom flux handler: with a missing or empty parameter file, or without a grid (0D), `syncIncidentFluxVec` reads the first row of an empty vector (`setup_defined`).  CustomFitFluxHandler.h:95-291; FluxHandler.cpp, `syncIncidentFluxVec`.
* **B39** Pulsed flux: the period number overflows an int (`pulse_overflow`).
* **B40** Diffusion weights and Soret factors: the cell width is not the weight of conservation; factors of an earlier call stay (`cell_width_not_conserved`, `betas_stale`).
* **B41** Surface advection: mask written outside; loop runs past the grid (`adv_out_of_bounds`, `adv_grid_overrun`).
* **B42** Advection: the partial derivative on the sink is missing in 2D and 3D; not conservative with a temperature gradient (`x_on_sink_missing`, `plane_boundary_partial`, `box_boundary_partial`, `surf_gradient_not_conserved`).
* **B43** Jacobian values, 1D: a point that stops early does not advance the index; the temperature is written twice (`stop_misplaces`, `temp_twice`, `temp_twice_robin`).
* **B44** Moving surface: unsigned offset turns a retraction into growth (`retraction_treated_as_growth`).
* **B45** Erosion account: charges another depth than the grid removes (`back_account_wrong`).
* **B46** Growth on `read` grids: extrapolates to negative concentrations (`grow_negative`).
* **B47** Grid functions: retraction past the available depth; `read` with fewer than two numbers; Chebyshev with no points (`read_short`, `cheby_none`, `retract_spec`).
* **B48** Temperature transfer: the left ghost gets the last temperature; gathers too few values after growth (`left_gets_last`, `uniform_left_gets_last`, `stale_gather`, `regrid_last`).
* **B49** Moving up: returns without restoring the array (read).
* **B50** Value padding: one entry short per missing cluster, then out of bounds (`padding_overflow`, `padding_out_of_bounds`).
* **B51** Preallocation in 2D and 3D: Y and Z sinks are announced for position 0 (`ygb_wrong_column`, `ygb_wrong_on_sink`); in the assembled matrix of two and three dimensions every row above a boundary has its upper neighbour's number in the column of the lower one (`across_boundary_partial`, `box_walls_partial`).
* **B52** 2D solver: minor differences to 1D (read).
* **B53** Alloy sizes: voids without vacancies (`alloy_void_misfit`).
* **B54** Ragged datasets: a rank without points is undefined; more than 2^32 values are lost (`empty_rank_undefined`, `too_large_lost`).
* **B55** Restart: the temperature is the last entry stored, whatever it is (`cold_temperature`, `all_negligible`).
* **B56** `setConcVector`: keeps stale values (`transfer_stale`).
* **B57** Fill map: rows beyond the degrees of freedom (`extra_row`).
* **B58** Checkpoint grid: sizes of `writeGrid` (read).
* **B59** PSI sizes: over-refined rows (`psi_overrefined`).
* **B60** PSI hydrogen: D or T without He is dropped (`psi_hydrogen_dropped`).
* **B61** `doInOrder`: one rank and an unbuffered send never returns (`single_deadlock`).
* **B62** Hardware counters: an unknown counter of a known object counts as zero (`hw_overcount`).
* **B63** Tokenizer: tabs do not separate; malformed numbers are accepted (`tab_not_separator`, `malformed_accepted`).
* **B64** Process list: an empty list leaves everything unset; a rejected list is half applied (`empty_list_unset`, `rejected_half_done`).
* **B65** Network parameters: voids without vacancies are lost; a single parameter is not restricted (`alloySub_void_lost`, `zrSub_single`).
* **B66** Comment removal: comment marks in strings; lines glued; not idempotent (`quoted_lost`, `lines_glued`, `not_idempotent`).
* **B67** Timers: a clock that steps back gives negative intervals, then a wrong maximum; the epoch is the sentinel; nested scopes throw (`clock_back`, `negative_max`, `epoch_lost`, `nested_throws`).
* **B68** EnumSequence: post-increment and the binary `operator+` would not compile if used (read).
* **B69** Bursting in 2D and 3D: is called with the factor 0, so nothing is accounted (`factor_zero`).
* **B70** Bursting in the tritium network: tritium is accounted as deuterium (`tritium_as_deuterium`).
* **B71** Totals: atoms omit first moments; groups that mix compositions with and without vacancies count as not trapped; the vector interface rejects the seven totals the array interface has (`atoms_wrong`, `trapped_mixed`, `seven_rejected`).
* **B72** Zirconium rates: for two loops the rate depends on their order; without a mobile cluster it is 0/0 (`zr_asymmetric`, `zr_immobile_undefined`).  Both are out of reach because loops do not move.
* **B73** Reaction file, thermal source of the recombination: `exp(dG / kB * T)` multiplies by the temperature (`recombination_unbalanced`).  NEReaction.tpp:116-117.
* **B74** Reaction file, thermal source: a reactant that is not in the file is looked up without a test (`recombination_unmapped`).
* **B75** Reaction file: a reaction switched off with 0 gets the rate computed from radii and diffusion factors (`switched_off`).
* **B76** Reaction file: only the radius of the first reactant enters the rate, so it depends on the numbering of the clusters (`first_radius`).
* **B77** Checkpoints: after a step over several multiples of the stride, every following step is written until the counter has caught up; a restart after an early checkpoint writes one more; a stride of 0 divides by zero (`backlog`, `restart_extra`, `zero_stride`).
* **B78** Reaction file without a final line break: reading never ends, because `getline` leaves the string as it was at the end of the file and the loop tests the string (`reactions_endless`, `single_endless`).  NEReactionNetwork.tpp:36-44, 92-150, 158-275.
* **B79** Reaction file with line breaks of two characters: `Reactions` is not recognised and every line is taken for a cluster (`carriage_return`).
* **B80** Custom flux without a final line break: rejected with a misleading message (`custom_rejected`).  CustomFitFluxHandler.h:253-254.
* **B81** Tungsten networks with deuterium and tritium: the cluster of two vacancies and twelve hydrogen atoms is selected, and its binding energies are read past the end of a row of `beTableV2` (`table_two_outside`).  PSIReaction.tpp:89, 164-166.
* **B82** Binding energies: the rule for the emission of a vacancy tests whether either product is a pure vacancy cluster, so it also applies to the emission of the last gas atom; helium and vacancy of a bubble of one helium atom and 16 to 31 vacancies have the same binding energy (`gas_emission_interpolated`).  PSIReaction.tpp:183.
* **B83** Helium clusters of more than eight atoms are allowed by the options; their formation energy is infinite, so that the ninth atom is bound with -5 eV and the tenth with NaN (`he_nine`).  PSIClusterGenerator.tpp:522-530.
* **B84** Grouping: formation energies are zero from one vacancy below the grouping minimum on; the first such cluster holds its vacancies with a whole formation energy instead of a difference (`boundary_binding`).  PSIClusterGenerator.tpp:507-508.
* **B85** `select` limits the hydrogen of a group by the helium of the largest bubble of the network instead of the group's, so that groups without any allowed composition are kept; with more than nine helium atoms per vacancy it drops groups that hold allowed ones (`select_group_over`, `select_group_lost`).  PSIClusterGenerator.tpp:418-419, 448-456.
* **B86** Fuel networks: the test meant to drop bubbles of one xenon atom and more than eight vacancies compares the start of the xenon range and the end of the vacancy range, so a group that starts at one xenon atom and reaches beyond eight vacancies is dropped with all its other members (`neSelect_group_lost`).  NEClusterGenerator.tpp:116-120.
* **B87** Zirconium: whether a group is a ball or a loop is decided by its smallest member; the radius of a group that reaches across ten defects is smaller than the mean of its members (`zrRadius_straddles`).  ZrClusterGenerator.tpp:179-182, 192, 210-213.
* **B88** Tungsten: groups of interstitials use the formulas for large clusters also below six, where single clusters use tables; between five and six interstitials the migration energy jumps from 0.05 to 0.6 eV (`psi_group_small`).  PSIClusterGenerator.tpp:574-579, 611-615.
* **B89** Alloys: the diffusion factor of a group of perfect loops is that of its smallest member, also when the larger ones are beyond the limit of seventy where loops stop (`alloyDiffusion_group`).  AlloyClusterGenerator.tpp:248-255.
* **B90** Custom flux: a row whose profile is zero in the middle of every cell adds nothing, but `getInstantFlux` still reports its flux, so the reported fluence is too large (`row_lost`).  CustomFitFluxHandler.h:54-72, 383-396.
* **B91** Pulsed flux: with a time profile the amplitude stays at its initial 0 and is never updated, so nothing is implanted (`pulsed_profile`); with amplitude 0 and no time profile the two indices are not set, and the first pulse reads them (`pulsed_zero`).  PulsedFitFluxHandler.h:71-141.
* **B92** Fuel fit flux: the name of the file is fixed to `reactionRates.txt`, and the table of two pure-defect factors is read at `V - 1` for any number of vacancies (read).  FuelFitFluxHandler.h:134-181.
* **B93** A grid file with fewer than two tokens on its line only prints an error, after which the second token is read (read).  SolverHandler.cpp:95-122.
* **B94** `getLeftOffset() - 2 >= 0` is always true, as the offset is unsigned; the surface, whose offset is 1, can only grow because of that (read).  PetscMonitor1D.cpp:1944-1945.
* **B95** In one and two dimensions `keepFlux` appends to vectors of the solver that are never cleared, and `setFlux` reads their first entry: from the second move of the surface on, every loop starts with the account at the end of the first (`solve_first_last`, `moves_lose`, `handed_first`, `handed_wrong`).  This also concerns the interstitials that drive the surface.  PetscMonitor1D.h:22-55, PetscMonitor2D.h:23-44, PetscSolver.cpp:276-277, 383-384.  Three dimensions overwrite, which is correct (`solve3_total`).
* **B96** The numbers of atoms released by bursting are not carried over to the monitor of the next loop (`burst_last`).  PetscMonitor.h:103, PetscMonitor1D.cpp:457-462, 1911.
* **B97** The reported fluxes use the diffusion coefficient of the point before, while diffusion uses that of the point itself (`balance_neighbour`).  PetscMonitor1D.cpp:954-955, 1049-1050.
* **B98** On grids that are not uniform the reported fluxes do not balance the content (`balance_widening`).  ReactionNetwork.tpp: updateOutgoingDiffFluxes.
* **B99** After the surface moved, the count of checkpoints restarts at 0, and every step is written until it has caught up (`move_backlog`).  PetscSolver.cpp:249-277.
* **B100** The number of xenon atoms at grain boundaries is not written to checkpoints, so that it is lost at a restart (read).  SolverHandler.cpp:57, SolverHandler.h:182.
* **B101** The depths handed to the network with the temperatures are those of the next point: entry `i` of the temperatures is for point `xs + i - 1`, the depth is that of point `xs + i` (`depths_next`).  Trap mutation therefore uses the temperature of the point above the surface (`surface_index`).  PetscSolver1DHandler.cpp:308-323, 371-380; PSIReactionNetwork.tpp:72-79.
* **B102** The heat equation is not applied at points on grain boundaries, whose temperature therefore stays fixed (`calls_interior`).  PetscSolver1DHandler.cpp:881-890, 1151-1160.
* **B103** The heat equation is applied twice at a reflecting surface, and at a reflecting bulk with a Robin condition (`calls_surface`, `calls_bulk`).  PetscSolver1DHandler.cpp:817-851, 878, 915-918.
* **B104** Every process chooses the tables of modified trap mutation with a temperature of its own part of the grid, so that processes can use different tables (`tables_differ`).  PSIReactionNetwork.tpp:72-79.
* **B105** In two dimensions a process whose points are all above the surface reads outside the vector of temperatures (`above_undefined`).  PSIReactionNetwork.tpp:74-79, PetscSolver2DHandler.cpp:395-405.
* **B106** Boundary, pulse and grouping options with too few values are not reported: a single boundary is dropped (`boundaries_single`), a pulse or grouping with one value reads past the end (`pulse_undefined`, `grouping_undefined`), and an empty option for random numbers does too (`rng_undefined`).  A pulse given as a JSON list is read as an empty text, so it always does.  Options.cpp:374-377, 414, 499-500, 507-509; JSONOptions.cpp:262.
* **B107** In a JSON file a single value that cannot be read leaves the default without notice (`checkSet_ignored`), and arguments for the solver library given as one text are dropped (`petsc_text_lost`).  JSONOptions.cpp:52-63, 294-298.
* **B108** What is not a number is rejected in a JSON list and becomes zero in a text (`forms_differ`).  Tokenizer.h:15-25, JSONOptions.cpp:65-74.
* **B109** A number of coupled time steps between zero and one passes the check for a positive value and becomes zero (`steps_zero`).  Options.cpp:478-482.
* **B110** A negative seed is accepted although the message says it must not be negative, and a seed of more than 32 bits is cut (`rng_negative`).  Options.cpp:423-429.
* **B111** Initial concentrations with a word missing at the end read past the end (`initial_missing`); two of them that fall into the same group do not add up (`place_lost`).  SolverHandler.cpp:455-478, PetscSolver1DHandler.cpp:340-342.
* **B112** Boundaries other than 0 and 1 are accepted as they are; the safeguards only look for 0 (`admitted_other`).  SolverHandler.cpp:526-550.
* **B113** A coupled run that begins at a time other than zero writes no header, adds to whatever file is there and prints the time it begins at twice (`run_later`): the first solve asks for the time the run is already at, and the header depends on the time being zero.  XolotlInterface.cpp:554, MultiXolotl.cpp:331-337, 377.
* **B114** A restarted coupled run prints the line of the stop again (`restart_line`).  MultiXolotl.cpp:285-290, 377.
* **B115** Times are rounded to 14 digits after the point; lines with times below `5e-15` count as time zero and each empties the file (`small_steps`).  MultiXolotl.cpp:298-308, MathUtils.h:29-38.
* **B116** Below a density of `1e-16` the columns called diameter hold a sum of diameters times concentrations, not a mean (`diameter_sum`).  ZrReactionNetwork.cpp:282-287, AlloyReactionNetwork.cpp:177-182.
* **B117** With no limit on the number of coupled steps, which the loop accepts as 0, the assertions of `timeAtStep` fail when the stop data is written (`asserts_unlimited`); with no step made, the last step is `2^64 - 1` (`lastStep_eq`).  TimeStepper.cpp:55-75, MultiXolotl.cpp:95, 108-109.
* **B118** Coupled runs add up the points of a one-dimensional grid with weight 1, single runs with the width of the cell; the same column of the same file has different units.  Also, the restart file of the primary instance is set in its options after the instance was built.  XolotlInterface.cpp:574, PetscMonitor1D.cpp:1487-1489, MultiXolotl.cpp:161, 178.  Read, not modelled.
* **B119** With gas in the network and pure vacancy clusters larger than bubbles, groups of pure vacancy clusters reach beyond their maximum: the flag set for regions that do is overwritten by the next test (`pure_beyond`).  Without gas the same region is subdivided.  PSIClusterGenerator.tpp:110-119.
* **B120** In the same networks vacancy clusters larger than bubbles are grouped even below the minimum size for grouping (`below_min_grouped`).  PSIClusterGenerator.tpp:106-119.
* **B121** Away from the helium edge the limits on hydrogen are not looked at, so that groups hold compositions with more hydrogen than is allowed for their helium (`hydrogen_over`).  PSIClusterGenerator.tpp:219-245.
* **B122** The tungsten `refine` never returns `false`: the interstitial axis stays flagged, so the count of flagged axes is never zero (`refine_true`).  PSIClusterGenerator.tpp:293-301.
* **B123** In two and three dimensions a line whose surface is at the top of the grid, where all begin, reads in front of the grid when it grows: the guard `surfacePos + leftOffset - 2 >= 0` compares an unsigned number and is always true (`roomAbove_true`, `top_outside`, `line_grows`).  PetscMonitor2D.cpp:1770-1781, PetscMonitor3D.cpp:1756-1767.
* **B124** A line that reaches the top ends the loop over the lines: the lines after it are not looked at, the solver adds the points to all lines, and the others get their atoms for nothing (`sweep_left`, `left_others`, `left_itself`).  PetscMonitor2D.cpp:1784-1788, SolverHandler.cpp:354-375.
* **B125** When all surfaces have receded, the number of points is handed over with the sign for growth, so the grid gets deeper instead of shallower; positions are not reset, so every later event repeats it (`receded`, `receded_again`).  PetscMonitor2D.cpp:1871-1883, PetscMonitor3D.cpp:1865-1878.
* **B126** In three dimensions the smallest position is first read with the default second index, the largest number there is: a read outside the vector at every surface event (`minSurf3_outside`).  PetscMonitor3D.cpp:1865, PetscSolver3DHandler.h:99-103.
* **B127** In three dimensions the sputtered amount is not multiplied with the area of the line while flux and thresholds are (`account2`, `account3`).  PetscMonitor3D.cpp:1484-1485, PetscMonitor2D.cpp:1373-1374.
* **B128** Of the open side of a higher neighbour one point is counted however large the difference (`sides_one`, `sides_all`); in three dimensions none.  PetscMonitor2D.cpp:1420-1465.
* **B129** Erosion is reported against the cell below and carried out against the cell above: with a cell above more than nine times as thick nothing moves (`reported_moves_partial`, `reported_stays`), and lines below the threshold of the report move with others (`moved_unreported`).  PetscMonitor2D.cpp:1489-1491, 1835.
* **B130** A surface that moves up by more than the left offset takes the temperature of a point above the old surface (`warm_spec`).  PetscMonitor2D.cpp:1774, 1795-1800.
* **B131** In two and three dimensions the Jacobian adds up the helium of the attenuation inside the loop over the lines of the process: different processes contribute different lines, and each line gets the sum (`jacobian_mixes`, `jacobian_exceeds`); right hand side and Jacobian agree only if the lines are not divided among processes (`consistent_partial`).  PetscSolver2DHandler.cpp:1284-1324, PetscSolver3DHandler.cpp:1426-1470.
* **B132** If the processes own different numbers of lines, they call the reduction differently often and wait forever (`jacobian_waits`); this happens whenever the number of processes does not divide the number of lines (`split_equal`).  The same lines.
* **B133** The temperatures of all lines are set one after the other before any line is computed, so the rates of all lines of a process are those of its last line (`last_line`, `rates_other`, `rates_partial`).  PetscSolver2DHandler.cpp:819-958, 1154-1279; PetscSolver3DHandler.cpp:900-1063, 1276-1419.
* **B134** With at least three lines a second evaluation of the same state can use other temperatures than the first (`again_three`, `again_one`).  The same lines.
* **B135** The second coordinate handed to the temperature handler is an integer division, 0 for every line (`yFraction_zero`, `yPosition_zero`); no handler uses it at present.  PetscSolver2DHandler.cpp:878, 1223; PetscSolver3DHandler.cpp:972-973, 1356-1357.
* **B136** After a change of the grid the lines with second or third coordinate 0 have lost their concentrations and temperatures, and the other lines their first point (`renewed_lost`, `renewed_surface`, `skipped2_iff`, `skipped3_count`): the loops start at 1.  PetscSolver2DHandler.cpp:432, PetscSolver3DHandler.cpp:494-495.
* **B137** In the same loops every process reads its interval on all lines, also those of other processes (`ownsRead_iff`, `ownsRead_divided`).  PetscSolver2DHandler.cpp:540-547, PetscSolver3DHandler.cpp:608-616.
* **B138** An amplitude given as a function of time is used only by the base class; fuel, iron, zirconium and alloy keep the amplitude 0 (`profile_ignored`).  FluxHandler.cpp:15-37, 212-216; FuelFitFluxHandler.h:207-240, AlphaZrFitFluxHandler.h:169-190, AlloyFitFluxHandler.h:336-360.
* **B139** The factors of the pure vacancies are a vector of two indexed with the number of vacancies minus one: a row with neither xenon nor interstitials and 0 or more than 2 vacancies is written outside (`factorsOf_inside`).  FuelFitFluxHandler.h:133, 144-181.
* **B140** The source of the fuel is negative when the pure vacancies hold more than the density (`available_sign`, `fuel_negative`), and depends on the concentrations while the Jacobian has no entry for it (`fuel_depends`).  FuelFitFluxHandler.h:227-240.
* **B141** The check of the iron handler for the number of dimensions never fires: it looks at a grid the handler does not store (`iron_never_throws`).  FeFitFluxHandler.h:53-58, 148-152.
* **B142** The iron source makes more vacancies than interstitials (`iron_balance`), and does not use the amplitude.  FeFitFluxHandler.h:160-167.
* **B143** In one dimension the loop that writes `alloyFlux.dat` reads two entries past the end of every row (`writes_outside`, `generation_length`).  AlloyFitFluxHandler.h:302-309.
* **B144** Sizes of the cascade without a cluster in the network are dropped silently, so vacancies and interstitials are made in different numbers (`alloy_total`, `alloy_unequal`); with all clusters the total is 0.998 of the damage (`alloy_pairs_partial`).  AlloyFitFluxHandler.h:207-292.
* **B145** The zirconium source is multiplied by the number of initialisations (`zr_again`); the solvers in two and three dimensions initialise for every line and evaluation.  AlphaZrFitFluxHandler.h:103-164; PetscSolver2DHandler.cpp:1013, PetscSolver3DHandler.cpp:1124.
* **B146** (read, not modelled) The fuel handler throws `std::string`, which no handler for `std::exception` catches.  FuelFitFluxHandler.h:92-129.
* **B147** Alloys: at exactly `maxI` both the interstitial cluster and the perfect loop exist, so two interstitial clusters that add up to it disappear at one and a half times the rate at which they meet, and a vacancy cluster with a perfect loop that leave it at twice the rate (`alloy_limit_ii`, `alloy_limit_vp`).  AlloyReactionNetwork.tpp:213-262, 316-345; AlloyClusterGenerator.tpp.
* **B148** Alloys: an interstitial cluster at least as large as a faulted loop or void does not react with it (`alloy_il_lost`), though the loops are written for interstitial clusters of any size.  AlloyReactionNetwork.tpp:396-470.
* **B149** Alloys: the rate of V + V is halved for each of void and faulted loop, also when only one of them is in the network, so half of the collisions are lost (`alloy_half`).  AlloyReaction.tpp:88-95.
* **B150** Alloys: a single perfect loop never reacts with a single faulted loop or void, because `k < maxSize` excludes the only size (`alloy_pf_never`; see B8).  AlloyReactionNetwork.tpp:472-534, 561-622.
* **B151** Alloys: a group of perfect loops has no sink reaction, whatever its diffusion (`alloy_sinks`).  AlloyReactionNetwork.tpp:668-671.
* **B152** Zirconium: the special dissociation of the basal cluster of size 9 is inside the test for a new vacancy cluster of size 9; without that cluster, or when it is grouped with a smaller sum, the basal cluster cannot shrink (`zr_basal9`, `zr_basal9_stuck`).  ZrReactionNetwork.tpp:97-119.
* **B153** Fuel: two interstitial clusters never react, because there is no special case for them and the unsigned bounds of the general case wrap around; with more than one interstitial allowed the larger ones are only made by the sources (`ne_interstitials`, `ne_interstitials_witness`).  NEReactionNetwork.tpp:415-479.
* **B154** Tungsten, iron, fuel: an interstitial cluster and a group with gas of which only some members have enough vacancies get no reaction at all, although some members could react (`psi_straddle_none`, `straddle_witness`; see B10).  PSIReactionNetwork.tpp:556-568, FeReactionNetwork.tpp:114-125.
* **B155** Tungsten: modified trap mutation looks only at the pair in the order (helium cluster, bubble); if the bubble has the smaller index the reaction is silently missing (`modified_order`). The interstitial cluster it needs is not checked either: without it the reaction is added with an invalid cluster (`modified_missing`).  PSIReactionNetwork.tpp:617-637.
* **B156** A generated iron network with a group along helium and vacancies at once does not conserve vacancies less interstitials: some coefficients of productions are lost (`two_axes_witness`; consequence of B22 for whole networks).  Reaction.tpp:183-420.
* **B157** Tungsten with grouped clusters of vacancies alone: a reaction whose product is an interstitial is evaluated on the interstitial axis, on which the regions are turned round, but the moment of the vacancies is not; the network then loses vacancies (`flipped_witness`; see B21).  ReactionUtility.h:257-288, Reaction.tpp:183-209.
* **B158** Zirconium: the binding energy of a vacancy falls by more than 0.02 eV from 924 to 925 vacancies, where the third fit is replaced by the fourth, although each grows with the size (`zrV_jump`).  ZrReaction.tpp:224-236.
* **B159** Iron: there is no energy for a helium atom leaving a bubble; the initial value of 5 eV is used whatever the helium content, so that such dissociations practically do not happen (`fe_bubble`).  FeReaction.tpp:106-126, 133-146.
* **B160** Zirconium and alloys: when a mobile cluster meets a group of the opposite kind that is not above it, the region of the group is turned round but its moment is not, and the network gains or loses lattice sites as soon as the moment is not zero (`zr_flip`; see B21, B157). Mobile groups of perfect loops meeting voids or faulted loops are in the same case.  ReactionUtility.h:74-75, 186.
* **B161** Restart of a fuel run: the xenon that had gone to the grain boundaries is neither written to nor read from the checkpoint, so the total and the amounts at the points start at 0 again (`restart_forgets`).  SolverHandler.cpp:57, 702-716; PetscMonitor1D.cpp:532-557.
* **B162** Grain boundaries: `setGBLocation` does not look whether a point is already there; a point set twice counts twice in the total and in its own amount (`set_twice`).  SolverHandler.cpp:724-733.
* **B163** Grain boundaries at coordinate 0: with an `IdType` of 32 bits the neighbour before is index 2^32 - 1 and the monitor reads outside of the array; in the periodic directions these are ordinary points (`into_first`).  PetscMonitor1D.cpp:1318-1321; PetscMonitor2D.cpp:1231-1232; PetscMonitor3D.cpp:1317-1318, 1333-1334.
* **B164** The flux into a grain boundary uses the diffusion coefficients of the neighbours, the diffusion itself that of the point and a term with the differences, so the account is not what diffuses when the temperature has a gradient (`into_gradient`), nor on a grid that widens (`balance_widening`).  PetscMonitor1D.cpp:1323-1331; Diffusion1DHandler.cpp:104-121.
* **B165** (Read, not modelled.) `initGBLocation` in two and three dimensions casts the network to a fuel network by reference and throws `std::bad_cast` for any other material in a coupled run, even without grain boundaries; in one dimension it returns.  PetscSolver2DHandler.cpp:632-635; PetscSolver3DHandler.cpp:702-705.
* **B166** Tungsten: clusters of six interstitials are given a larger diffusion factor than those of five, so they diffuse faster at high temperature (`psi_six_faster`).  PSIClusterGenerator.tpp:630-652.
* **B167** Fuel: vacancy clusters of any size have the radius of one vacancy (`ne_axis_radius`).  NEClusterGenerator.tpp:172-174.
* **B168** Zirconium: interstitials without any anisotropy are captured by loops with efficiency 1.01, one per cent more than spherical capture (`efficiency_isotropic`).  ZrReaction.tpp:72-80.
* **B169** Retention in 2D and 3D: what leaves through the walls of steps of the surface and through free sides is not in any account (`step_unaccounted`, `walls_leak`), nor what goes into free-surface grain boundaries (`boundary_unaccounted`).  PetscMonitor2D.cpp:779-950; PetscMonitor3D.cpp:842-1018.
* **B170** Retention in 2D and 3D: the distance for the flux by advection uses the location that the advection handler was given last, that of the last column of the process; for a column with another surface position the flux is too small by a factor of 81 or more, except when the last surface is one point deeper (`stale`).  PetscMonitor2D.cpp:833-834; PetscMonitor3D.cpp:898-899.
* **B171** Mean ratio and variance: the volume counts every composition of a bubble and the sums only one for each pair of sizes; with groups along a third species the mean is too small by their width (`wide_wrong`, `wide_by`).  ReactionNetwork.tpp:1367-1392, 1434-1459.
* **B172** The overload of `getTotalRatioVariance` for species ids (the only one in the interface) does not pass the mean: the minimum size is taken as the mean, and all sizes are counted (`byId`, `byId_wrong`).  ReactionNetwork.h:697-703.
* **B173** Monitor without dimensions: the guard against an empty network looks at all xenon, the mean only at clusters with vacancies and at least two atoms; with xenon but no such bubble both columns are 0/0 (`columns_undefined`).  PetscMonitor0D.cpp:424, 438-445.
* **B174** TRIDYN file: the temperature in the row of a point is that of the point before, on the rank with the surface that of the point one plus the left offset before: the interpolated temperatures start with the ghost point and are indexed from the first row (`tridyn_row`, `tridyn_wrong`).  `profileTemperature` adds the one that is missing (`profile_right`).  PetscMonitor1D.cpp:2114-2149, 2235.
* **B175** Data lines of alloys and zirconium: with a minimum size of zero for a species its "partial" columns count the clusters of all species (`zero_counts_all`).  AlloyReactionNetwork.cpp:150-158; ZrReactionNetwork.cpp:252-263.
* **B176** With both `-helium_retention` and `-xenon_retention` the fluence is registered twice and every step is charged twice (`doubled`, `doubled_value`).  PetscMonitor1D.cpp:467, 559; PetscMonitor2D.cpp:323, 411; PetscMonitor3D.cpp:338, 427.
* **B177** Without retention options, and in zero dimensions with any options, the fluence is never computed, but it is written to every checkpoint as 0 and in zero dimensions read back; a restart without retention options forgets the fluence stored (`never`, `forgotten`).  PetscMonitor.cpp:260-263; PetscMonitor0D.cpp:152-170.
* **B178** `getConvergenceStatus` answers `true` after every `solve`, also if the nonlinear solver diverged or the time step collapsed: it only looks for the reason of a move of the surface, for which `solve` is never left (`reported`).  PetscSolver.cpp:352, 446-468.
* **B179** The limits given by `setTimes` are lost when the surface moves: the `TS` of the next loop is new and has the limits of the options (`limits_lost`).  PetscSolver.cpp:217-245, 293-306, 354-356.
* **B180** Every move of the surface leaves a base of options, a grid, a vector and a time stepper behind, and every loop a matrix (`leaks`).  PetscSolver.cpp:184, 195, 202, 207-209, 217, 470-484.
* **B181** Without sub-networks, two solvers of one program must be finalized in the opposite order: the one that initialized PETSc finalizes it and the others then use it (`many`, `finalize_order`).  PetscSolver.cpp:175-179, 481-483.
* **B182** A loop that ended with the reason of a move but an offset of zero is followed by one that starts from the restart file or the initial concentrations, at the later time; the saved vector and grid are left behind (`next_loop`, `leaks`).  PetscSolver1DHandler.cpp:288-289; PetscSolver2DHandler.cpp:305; PetscSolver3DHandler.cpp:361.
* **B183** A second checkpoint into the group of a step that has one always throws: `addTimestepGroup` has a path that updates an existing group, but the data set of the fluence exists and cannot be created again (`second_throws`).  XFile.cpp:420-443, 496-513; PetscMonitor.cpp:254-263.
* **B184** The safeguard against processes at a reflective surface compares the left boundary with 0, the vectors of the surface are made only for 1: with 2 and a moving surface the first checkpoint, or the restart, leaves empty vectors (`other_boundary`).  SolverHandler.cpp:541-550; PetscMonitor1D.cpp:146-149, 241-255, 770-774.
* **B185** A restart file without time steps leaves the grid of the first loop empty, as no grid is generated for a restart, and the number of points becomes 2^32-2 (`grid_no_steps`).  PetscSolver1DHandler.cpp:30-48.
* **B186** The sizes `ny` and `nz` stored with the grid are zero in every file, also in two and three dimensions (`sizes_lost`).  XFile.h:155-156; PetscMonitor2D.cpp:607; PetscMonitor3D.cpp:663.
* **B187** A restart with a moving surface on a mesh with fewer points in y or z writes the stored positions outside of the vector; nothing compares the sizes (`pos_other`).  PetscSolver2DHandler.cpp:65-70; PetscSolver3DHandler.cpp:79-84.
* **B188** The series plot in one dimension fails with two or more processes: the number of grid points is sent as one `MPI_DOUBLE` from an integer variable and received as one `MPI_INT` (`series_fails`, `series_never`, `series_if_int`).  PetscMonitor1D.cpp:2334-2336, 2396.
* **B189** The loop that carries concentrations over to a new grid uses all processes of the run instead of those of the simulation: with processes outside of it the others wait for ever (`carry_world`).  PetscSolver1DHandler.cpp:403, 434-458; PetscSolver2DHandler.cpp:428, 464-518; PetscSolver3DHandler.cpp:490, 531-585.
* **B190** A misspelt name or a second entry for a name in a JSON file is ignored without notice (`json_unknown`, `json_repeated`), while the other format refuses them (`conf_refuses`).  JSONOptions.cpp:113-298, ConfOptions.cpp:253.
* **B191** A path to a flux profile or a reaction file with a blank in it is ignored in a JSON file, and the default is used (`json_path_lost`, `path_blank`).  JSONOptions.cpp:282-284.
* **B192** A text option given as a JSON list, such as initial concentrations or grain boundaries, is read as empty (`json_text_list`); random numbers as a list always read past the end (`json_list_fails`).  JSONOptions.cpp:158, 190, 256-264.
* **B193** (see also B56) Putting back a saved state on a grid does not clear the values that were below 1e-16 when it was saved: they keep what the repeated step gave them (`put_stale`, `put_exact_iff`).  PetscSolver1DHandler.cpp:670, 699-707; PetscSolver2DHandler.cpp:704, 733-743; PetscSolver3DHandler.cpp:777, 807-820.
* **B194** On a grid the temperatures of the state put back are never taken over: `for (auto i = -1; i <= localXM; ++i)` compares an `int` with an unsigned number and ends at once, so the network is given the temperatures of before (`visited_nil`, `temps_kept`).  PetscSolver1DHandler.cpp:727; PetscSolver2DHandler.cpp:764; PetscSolver3DHandler.cpp:842.
* **B195** `setPreviousTime` of the interface sets the fluence to the present amplitude times the whole time, which is the fluence saved only when the flux was constant (`fluence_back_iff`).  XolotlInterface.cpp:268-274, SolverHandler.h:475-481.
* **B196** Whether a helium cluster has its modified trap mutation depends on the numbering of the clusters: the rule wants the helium cluster as the first of a pair and pairs are visited with increasing ids only (`mut_order`, `mutations_mem`).  PSIReactionNetwork.tpp:617-637, ReactionGenerator.tpp:36-57.
* **B197** With interstitial clusters of size 1 only, every surface gets a trap mutation with an invalid third cluster (`mut_invalid`, `mut_defined_iff`).  PSIReactionNetwork.tpp:630-633.
* **B198** No generator calls `addNucleationReaction`: the nucleation reactions of the fuel network are never made. (Read, not modelled.)  NEReactionNetwork.tpp:332-502.
* **B199** A restart never compares its network with the one of the restart file and does not write its own: the checkpoint file goes on describing the network of the first run, while the indices of its concentrations are those of the last (`stale_network`, `chain_own`).  PetscMonitor.cpp:187-211.
* **B200** With checkpoints, the name of a restart file that does not exist is no error until the old checkpoint file has been emptied (`missing_restart`, `start_thrown`).  PetscMonitor1D.cpp:665-686, PetscMonitor.cpp:190-197.
* **B201** If the restart and the checkpoint file have the same name and the file does not exist yet, the run starts from scratch and its checkpoint file never gets a network (`never_network`).  PetscMonitor1D.cpp:665-667.
* **B202** With trap mutation, a run without solver reads the temperature after the end of the vector: its only depth is 0 (`noSolve_outside`).  XolotlInterface.cpp:126-128, PSIReactionNetwork.tpp:72-79.
* **B203** In two and three dimensions a rank that lies above the moved surface finds no depth greater than 0.01 and reads after the end of the temperatures (`vacuum_outside`, `defined_last`).  PSIReactionNetwork.tpp:72-79.
* **B204** Every rank decides with a temperature of its own, so the depths and sizes of trap mutation at a grid point depend on the number of ranks if the temperature crosses 1066.5 K (`ranks_differ`, `first_rank`, `later_rank`).  PSIReactionNetwork.tpp:72-79.
* **B205** The depth given with a temperature is that of the next entry: `interpolateTemperature` takes entry k between grid points k - 1 and k, the depths are taken between k and k + 1 (`shifted`, `shifted_lt`).  PetscSolver1DHandler.cpp:372-379, SolverHandler.cpp:791-829.
* **B206** Surface advection is not conservative if the temperature or the diffusion coefficient varies: besides the difference of the drifts, the product of the differences of D/T and of c/d^4 is lost at every point (`advRate_product`).  SurfaceAdvectionHandler.cpp:136-155.
* **B207** `setEnableConstantReaction` and `setEnableReadRates` do not discard the mirror, so a mirror made before shows the old flag; in this program they are called in the constructor only, where there is no mirror (`flag_stale`, `coherent_flags`).  ReactionNetwork.tpp:233-255.
* **B208** For zirconium, `setGridSize` gives the mirror the new size but leaves it the anisotropy ratios of the old one, until the mirror is discarded by another call (`zr_stale`).  ZrReactionNetwork.cpp:125-131, ReactionNetwork.tpp:262-265.
* **B209** With separate memories the data of trap mutation in the mirror are old after the calls that change them on the device only, as the comments in the code say; with one memory they are the same (`extra_stale`, `extra_same`).  PSIReactionNetwork.tpp:130-135, 311-316, 331-336.
* **B210** bursting.txt and AlphaZr.dat are emptied before every loop of the solver, not before the first one as the other files, so the rows of all loops but the last are lost when the surface moves (`rows_lost`).  PetscMonitor1D.cpp:285-292, 389-390.
* **B211** All text files are emptied when a program starts from a checkpoint, so what the earlier program wrote is lost (`restart_erases`).  PetscMonitor0D.cpp:181, PetscMonitor1D.cpp:474-477, 566-569, 595-598.
* **B212** instantFlux.txt has a label for each cluster of the flux but only one value for all handlers but the custom one; with pulses there are two labels and one value (`instant_base`, `instant_pulsed`).  FluxHandler.cpp:304-315, PulsedFitFluxHandler.h:101, 115.
* **B213** The header of tempProf.txt has no label for the time, so the depths are one column to the left of their temperatures; after the surface moved, rows have another number of columns than the header (`temp_shift`, `temp_moved`).  PetscMonitor1D.cpp:614-621, 2209, 2229-2247.
* **B214** The first row after a restart has the fluences of the file, fewer or more than the header says if the number of reduction factors was another (`he_width`, `restart_short`).  PetscMonitor.cpp:306-307, PetscMonitor1D.cpp:408-410, 1103-1105.
* **B215** In the header for zero dimensions the label of a cluster with interstitials leaves out its xenon and vacancies (`label_interstitial`); a line of the reaction file with fewer than three numbers is read outside (`ne_undefined`).  PetscMonitor0D.cpp:195-218.
* **B216** A cluster of iron that groups sizes from no helium on is taken for vacancies and left out of the bubble file (`bubble_missed`).  PetscMonitor0D.cpp:640-642.
* **B217** The moment columns of the first product of a dissociation go through the entries of the reactant; if the reactant is not grouped along that axis the entry was never set, it is 0, and the rate is added to the first number of the array whatever it stands for (`first_wrong`, `covered_or_unset`).  Reaction.tpp:2785-2794.
* **B218** In one dimension the right-hand side leaves the first grid point alone whatever the left boundary is: with a reflective surface (offset 0) it gets the initial concentrations and then nothing is ever computed for it, so its neighbour sees a fixed concentration in place of a mirror; two and three dimensions compute it (`first_frozen`, `first_evolves`).  PetscSolver1DHandler.cpp:985-986, 1260.
* **B219** In three dimensions the vector of temperatures is not cleared when the state is initialised again, after a loop that ended with the reason of a move: it has twice the entries, and the depths of the added ones read beyond the end of the grid (`size_calls`, `again_outside`).  PetscSolver3DHandler.cpp:344-346, 458-466.
* **B220** At a restart the two entries of the vector of temperatures that are not of the rank have the temperature of the handler at time 0, not that of the file, so the neighbouring ranks give the network other temperatures for the same grid points until the first right-hand side, and for ever where the difference is no more than 0.1 K (B254) (`restart_written`).  PetscSolver1DHandler.cpp:322-323, 357-366; PetscSolver2DHandler.cpp:377-389; PetscSolver3DHandler.cpp:439-452.
* **B221** The amounts released by bursting are accounted with half the distance between the neighbours of the point, `(grid[xi + 1] - grid[xi - 1]) / 2`, the retained amounts with `grid[xi + 1] - grid[xi]`: on a grid that gets wider with depth less is accounted than disappears (`account_one`, `hxLeft_less`).  PetscMonitor1D.cpp:875, 1889-1904.
* **B222** In two dimensions every rank goes through the points that burst on all ranks and reads their rows in its own array before it looks whether it owns them: outside of its part that is undefined (`post_two_undefined`).  PetscMonitor2D.cpp:1641, 1652.
* **B223** In three dimensions the value of the bursting event is set on the ranks on which a point bursts only, without the reduction that one dimension has ("All the processes should call post event"), so the ranks give PETSc different values (`three_disagree`, `happens_three`).  PetscMonitor3D.cpp:1643-1647, PetscMonitor1D.cpp:1817-1820.
* **B224** B3 reaches the matrix of networks as small as two clusters: with `-snes_mf_operator`, iron with V_1 and He_1V_[2,4) loses the derivative of the moment of the group by itself for the dissociation into V_1 and the group, so the matrix is not the diagonal of the Jacobian (`diagonal_lost`, `matrix_reduced`).  Reaction.tpp:2684-2693.
* **B225** Whether the same two clusters lose an entry or write through an index that was never set depends on the order in which the network lists them (`order_undefined`, `defined_iff`).  Reaction.tpp:2685-2692, 3024-3042.
* **B226** The word `-snes_mf_operator` alone decides; a value after it, such as `false`, is not looked at, neither here nor where the solver asks whether the option has been given, an answer it does not use (`value_ignored`).  ReactionNetwork.tpp:56-65, PetscSolver.cpp:189-192.
* **B227** With a reflecting surface in one dimension the assembled matrix is that of shifted rows: the first row of the right-hand side is constant, while its diagonal entry in the matrix is that of the second row (`line_reflecting_wrong`).  PetscSolver1DHandler.cpp:1260-1261.
* **B228** At a heated surface the diagonal entry of the temperature in the assembled matrix is not the derivative of the right-hand side, at 300 K for every flux but zero (`line_surface_wrong`).  PetscSolver1DHandler.cpp:1111-1124, HeatEquationHandler.cpp:424-435.
* **B229** The file of heat fluxes is not used if the first `tempParam` is 0 or not given: the temperature stays that of the bulk (0 K without `tempParam`, though the help says that `tempFile` needs none), while the message says that the file is used (`heat_file_ignored`).  HeatEquationHandler.cpp:45, 122-127, 139-141, 255-257; ConfOptions.cpp:86-90.
* **B230** A line of the temperature or flux file that has no number (a blank, the end of line of another system, a header without `#`) is a row with time 0 and value 0; as last line it gives 0 K at every later time (`profile_blank_line`).  ProfileHandler.cpp:52-59; HeatEquationHandler.cpp:57-64.
* **B231** With `tempHandler=profile` the temperature in the solution stays that of time 0: tempProf.txt, the TRIDYN file and the checkpoints have the initial temperature while the rates follow the profile (`stored_profile`, `stored_profile_wrong`).  TemperatureHandler.h:79-87; PetscMonitor1D.cpp:2118, 2221.
* **B232** The ELM flux falls at the end of each period: it is up to then larger than at the start of the next one (`elm_jump`).  HeatEquationHandler.cpp:492-497.
* **B233** In zero dimensions `heat` and `ELM` never change the temperature, without a message (`zero_dimensions`).  PetscSolver0DHandler.cpp:262-300.
* **B234** A `tempFile` given with the default handler is ignored, and the temperature is 0 K without `tempParam` (`constant_given`); `tempHandler=profile` without a file reads outside of a vector (`profile_no_rows`).  ConfOptions.cpp:77-90; ProfileHandler.cpp:70.
* **B235** A grain boundary `X` in one dimension is accepted, and every run with it stops at the first evaluation: the handler asks for a stencil of 5 points, the solver gives 3 (`x_boundary_line`).  XGBAdvectionHandler.cpp:109-113; PetscSolver1DHandler.cpp:1006-1010.
* **B236** A grain boundary `Z` in two dimensions is accepted though the message of the test says that it cannot be used (the test is `dim < 2`), and the first evaluation throws: 7 points asked for, 5 given (`z_boundary_plane`).  MaterialHandler.cpp:128-133; ZGBAdvectionHandler.cpp:109-113.
* **B237** Grain boundaries with `Fe`, `Fuel`, `AlphaZr` or `800H` use a null pointer in the initialisation (`boundary_other_material`); without dimension they are ignored (`boundary_zero_dimensions`).  XGBAdvectionHandler.cpp:22-24.
* **B238** A letter without location at the end of the grain string is read outside of the tokens (`boundary_no_location`, `boundaries_undefined_iff`).  MaterialHandler.cpp:108-138.
* **B239** The process `soret` changes nothing but for `W100` in one dimension, `advec` nothing for the materials without a surface handler, without a message (`soret_used_iff`, `process_ignored`).  W100MaterialHandler.h:20-22; MaterialHandler.h:61-64.
* **B240** The largest cluster of an alloy network is looked for among voids, Frank and faulted loops only: a larger perfect loop is not watched (`perfect_ignored`, `largest_false`); a network of point defects and perfect loops has no largest cluster, and the monitor reads in front of the concentrations of the point (`none_perfect`, `alloy_perfect_undefined`).  AlloyReactionNetwork.cpp:71-72; PetscMonitor.h:95.
* **B241** Interstitials are not counted in tungsten, iron and fuel networks (`largest_false`).  PSIReactionNetwork.tpp:372; FeReactionNetwork.cpp:70; NEReactionNetwork.cpp:70.
* **B242** With several clusters of the largest size only one is watched, in one thread the first (`serial_first`, `tie_unseen`), with several any of them (`any_of_the_largest`); of a group only the mean is compared, so that its largest composition can be over the threshold unseen (`group_unseen`).  FeReactionNetwork.cpp:67-75; PetscMonitor1D.cpp:723.
* **B243** The plots of the planes in three dimensions, said to integrate over the other direction, add the concentrations without the step: with twice the points they show twice the amount (`not_integral`, `twice_the_points`).  PetscMonitor3D.cpp:1973, 2098.
* **B244** The scatter plot "Size Distribution" has one value for each cluster and number of xenon atoms: with vacancies there are several values at one size, none of which, nor their sum, is the concentration of the size; pure vacancies and interstitials appear at size zero; members of a group all get its mean (`scatter_vacancies`, `scatter_zero`, `scatter_xenon`).  PetscMonitor0D.cpp:545-557; PetscMonitor1D.cpp:1552-1564.
* **B245** The height in surface.txt is the thickness of the material in one dimension and the depth of the surface in two and three: one falls and the other grows when material is lost (`height_thickness`, `height_depth`).  PetscMonitor1D.cpp:1665; PetscMonitor2D.cpp:1359; PetscMonitor3D.cpp:1465-1466.
* **B246** The images of the planes use the middle of the interval of a grid point as the edge of its cell: the half of every interval nearer to the surface is drawn with the value of the point before, so everything appears half an interval too deep (`left_half_of_before`, `shifted`, `surface2`).  CvsXYDataProvider.cpp:13-38; PetscMonitor2D.cpp:1963; PetscMonitor3D.cpp:1959, 2084.
* **B247** The scatter plot makes a uniform data set of as many points as there are sizes and does not use the sizes: a network of clusters of 1, 2, … atoms is drawn one to the left, and with vacancies or groups in the list the abscissa has nothing to do with the size (`scatter_drawn`, `scatter_right_iff`, `scatter_shifted`, `scatter_vacancies_first`).  ScatterPlot.cpp:58-67.
* **B248** With one point in the direction of Y or Z the image has no height, with two points in the depth its last edge is misplaced because the running maxima start at zero, and points at one place make fewer cells than values (`one_row`, `two_points`, `same_place`).  CvsXYDataProvider.cpp:19, 35, 46, 62.
* **B249** The flux of a nucleation reaction compares a concentration with a rate: below `2 * rate` the flux is the concentration itself, whatever the unit of time, that is a time constant of one second that is written nowhere (`nucleation_no_units`, `nucleation_units`).  NucleationReaction.tpp:76-86.
* **B250** `setFissionRate` and `setZeta` do not update the rates that depend on them: they are the old ones until the time or the temperatures are set (`stale`).  ReactionNetwork.tpp:171-186.
* **B251** In two and three dimensions the diagonal entry of the temperature in the assembled matrix is not the derivative of the right-hand side at any point whose temperature varies along the surface, for instance at 300 K unless the second difference vanishes (`plane_heat_partial`, `box_heat_partial`, `lack2_300`, `lack3_300`).  HeatEquationHandler.cpp:350-354, 414-419; PetscSolver2DHandler.cpp:1248-1262.
* **B252** Without a free surface at the left (`leftOffset` 0) the heat equation is applied twice at the surface of every column, in the right-hand side and in the matrix (`heatTimes_eq`).  PetscSolver2DHandler.cpp:824-863, 935-939, 1197-1213, 1248-1262; PetscSolver3DHandler.cpp:907-953, 1038-1044.
* **B253** After a move the surface is given the temperature of the next point, but the scatter of the old surface point that follows replaces all its components: the network starts with one temperature at the surface and the vector with another (`surface_two_temperatures`).  PetscSolver1DHandler.cpp:514-516, 541-565.
* **B254** After a move a rank takes the temperature of its own first and last point for the points of its neighbours; if they differ by no more than 0.1 K this is never corrected, and neighbouring ranks use different diffusion coefficients at the same point for ever (`neighbours_own`, `never_agree`).  PetscSolver1DHandler.cpp:521-522, 871.
* **B255** After a move a first rank with one point has only temperatures of 0 K until the next evaluation, and writes the initial concentrations at a point it does not hold (`single_zero`, `outside`).  PetscSolver1DHandler.cpp:514-519.
* **B256** After every move, also when material was lost, the components with an initial concentration get it again at the first point below the surface, in place of the value carried over (`reset_receding`, `carried_at`).  PetscSolver1DHandler.cpp:514-519.
* **B257** A reaction file can be read only if the network has the interstitial, one and two vacancies and the xenon atom and the file a line for each; otherwise the lookup of the formation energies reads outside the map, without any check (`missing_species`, `formation_isSome`).  NEReactionNetwork.tpp:277-304.
* **B258** The formation energies are found once, at the temperature of the options; at any other temperature of the network they are wrong by Boltzmann's constant times the difference times the entropy, and rates of dissociation not in the file by a factor that is 2.2 for the vacancies of the tests after 100 K (`stale`, `stale_rate`).  NEReactionNetwork.tpp:106, 283-304, ReactionNetwork.tpp:78.
* **B259** With two lines about the same cluster the formation energy is that of the first and the diffusion factor that of the last (`repeated`, `repeated_case`).  NEReactionNetwork.tpp:101, 140.
* **B260** Without a reaction file the formation energies are all 0, so that voids without xenon hold their vacancies with no energy (`void_no_file`).  NEReactionNetwork.tpp:59-63, NEReaction.tpp:718-734.
* **B261** Zirconium: nine interstitials have a migration energy of 0.1 eV and a sink of their own but the diffusion factor 0, so that they never move and the branch for diffusers in one dimension is never reached (`nine_rest`).  ZrClusterGenerator.tpp:120, 146, ZrReactionNetwork.tpp:428-432, ClusterData.tpp:181.
* **B262** Zirconium: the diffusion data of four and five interstitials are never used, since only up to three move (`four_five_rest`).  ZrReactionNetwork.tpp:364-372, ZrClusterGenerator.tpp:130, 157.
* **B263** Zirconium: at a point with 0 K, which a rank can have after a move or before the first evaluation, the anisotropy is not a number (`zero_kelvin`).  ZrReactionNetwork.tpp:387-422.
* **B264** Zirconium: a group of vacancies that starts at no more than six moves as a whole with the coefficient of its smallest cluster (`group_origin`).  ZrReactionNetwork.tpp:389, ZrClusterGenerator.tpp:126.

## Axioms

Output of `#print axioms` for every theorem of MANIFEST.json, grouped.  P = `propext`, C = `Classical.choice`, Q = `Quot.sound`.

| id | axioms | theorems |
|---|---|---|
| C01 | C Q P | Util.firstOrderSum_eq, Util.secondOrderSum_eq, Util.secondOrderOffsetSum_eq |
| C02 | C Q P | Network.overlapWidth_eq_card, Network.overlapWidth_pos_iff, Network.ProdIn.nOverlap_eq_card, Network.ProdIn.nOverlap_no_product |
| C03 | C Q P | Network.ProdIn.coefs_eq, Network.ProdIn.coefs_eq_one_axis, Network.ProdIn.coefs_eq_order_zero, Network.ProdIn.coefs_eq_one_grouped_axis, Network.ProdIn.coefs_lost_two_axes |
| C04 | C Q P | Network.Fits.production_conserves_of_exact, Network.Fits.production_conserves_one_axis, Network.Fits.production_conserves_one_grouped_axis, Network.Fits.production_not_conserving_two_axes, Network.Reflect.reflection_flips_moment |
| C05 | C Q P | Network.DissIn.diss_coefs_eq, Network.DFits.dissociation_conserves |
| C06 | C Q P | Network.DFits.dissociation_conserves, Network.TmRxn.trapMutation_conserves, Network.addTrapMutations_spec, Network.addTrapMutations_balance, Network.NucRxn.nucleation_conserves, Network.NucRxn.nucleation_bounded, Network.SinkRxn.sink_removes |
| C06 | Q P | Network.TmRxn.trapMutation_flux, Network.addTrapMutations_invalid_interstitial, Network.SinkRxn.sink_flux |
| C07 | C Q P | Network.Network.network_conserves, Network.Network.network_content, Network.Network.network_content_one_axis |
| C07 | Q P | Network.Interleaves.perm, Network.Interleaves.sequential, Network.schedule_independent, Network.schedule_sum |
| C08 | C Q P | Network.ProdRxn.production_jacobian, Network.ProdRxn.production_jacobian_second_product_only, Network.DissRxn.dissociation_jacobian, Network.TmRxn.trapMutation_jacobian_partial, Network.TmRxn.trapMutation_jacobian_desorption, Network.NucRxn.nucleation_jacobian, Network.SinkRxn.sink_jacobian, Network.Network.network_jacobian, Network.Network.network_jacobian_rows |
| C09 | C Q P | Network.ProdRxn.production_connectivity_covers, Network.ProdRxn.production_reduced_covers, Network.DissRxn.dissociation_reduced_unset_entry, Network.Network.network_connectivity_covers |
| C09 | Q P | Network.DissRxn.dissociation_connectivity_covers, Network.DissRxn.dissociation_reduced_covers, Network.DissRxn.dissociation_reduced_mapped, Network.TmRxn.trapMutation_connectivity_covers, Network.NucRxn.nucleation_connectivity_covers, Network.SinkRxn.sink_connectivity_covers |
| C10 | C Q P | Network.ProdRxn.production_reduced_eq_diagonal, Network.DissRxn.dissociation_reduced_eq_diagonal_partial, Network.DissRxn.dissociation_reduced_misses_diagonal, Network.ConstRxn.constant_reduced_partial, Network.ConstRxn.reduced_off_diagonal |
| C10 | Q P | Network.TmRxn.trapMutation_reduced_eq_diagonal, Network.NucRxn.nucleation_reduced_eq_diagonal |
| C100 | C Q P | Transport.Temperature.gradient_given, Transport.Temperature.relative_inside, Transport.Temperature.relative_mono, Transport.Temperature.gradient_between, Transport.Temperature.gradient_above, Transport.Temperature.profile_given_partial, Transport.Temperature.profile_blank_line, Transport.Temperature.profile_no_rows, Transport.Temperature.heat_given_partial, Transport.Temperature.elm_given, Transport.Temperature.heat_flux, Transport.Temperature.heat_file_ignored, Transport.Temperature.make_none, Transport.Temperature.stored_used_partial, Transport.Temperature.stored_profile, Transport.Temperature.stored_profile_wrong, Transport.Temperature.elm_period, Transport.Temperature.elm_bounds, Transport.Temperature.elm_start, Transport.Temperature.elm_inside, Transport.Temperature.elm_flux_given, Transport.Temperature.elm_start_continuous, Transport.Temperature.elm_jump |
| C100 | Q P | Transport.Temperature.constant_given, Transport.Temperature.readFile_eq, Transport.Temperature.heat_flux_file, Transport.Temperature.zero_dimensions |
| C101 | C Q P | Options.Material.boundaries_ok_iff, Options.Material.boundaries_undefined_iff, Options.Material.boundaries_throws_iff, Options.Material.materials_known, Options.Material.run_ok_iff, Options.Material.soret_used_iff, Options.Material.boundary_zero_dimensions, Options.Material.x_boundary_line, Options.Material.z_boundary_plane, Options.Material.boundary_other_material, Options.Material.boundary_no_location, Options.Material.process_ignored |
| C101 | Q P | Options.Material.diffusion_cases, Options.Material.make_iff |
| C102 | C Q P | Network.Largest.stops_iff, Network.Largest.goes_on_iff, Network.Largest.any_of_the_largest, Network.Largest.tie_unseen, Network.Largest.group_unseen |
| C102 | P | Network.Largest.largest_false |
| C102 | Q P | Network.Largest.largest_counted, Network.Largest.none_iff, Network.Largest.largest_partial, Network.Largest.largest_zr, Network.Largest.some_rank_stops, Network.Largest.serial_first, Network.Largest.size_total, Network.Largest.perfect_ignored, Network.Largest.none_perfect, Network.Largest.none_undefined, Network.Largest.alloy_perfect_undefined |
| C102 | none | Network.Largest.size_wraps |
| C103 | C Q P | Solver.Plots.xy_value, Solver.Plots.xz_value, Solver.Plots.xy_points, Solver.Plots.xz_points, Solver.Plots.not_integral, Solver.Plots.twice_the_points, Solver.Plots.scatter_vacancies, Solver.Plots.draws_one, Solver.Plots.row3_get, Solver.Plots.height_depth, Solver.Plots.height_thickness |
| C103 | Q P | Solver.Plots.scatter_mem, Solver.Plots.scatter_xenon, Solver.Plots.scatter_zero, Solver.Plots.row2_get |
| C104 | C Q P | Solver.Drawn.surface_cells, Solver.Drawn.surface2, Solver.Drawn.surfaceXY, Solver.Drawn.surfaceXZ, Solver.Drawn.left_half_of_before, Solver.Drawn.shifted, Solver.Drawn.one_row, Solver.Drawn.two_points, Solver.Drawn.same_place, Solver.Drawn.series_lines, Solver.Drawn.only_eighteen, Solver.Drawn.scatter_right_iff, Solver.Drawn.scatter_vacancies_first, Solver.Drawn.mean_spec |
| C104 | Q P | Solver.Drawn.small_alike, Solver.Drawn.scatter_drawn, Solver.Drawn.scatter_shifted |
| C105 | C Q P | Network.Irradiation.reSolution_pos, Network.Irradiation.reSolution_linear, Network.Irradiation.reSolution_radius, Network.Irradiation.reSolution_zeta, Network.Irradiation.reSolution_bound, Network.Irradiation.zeta_steps, Network.Irradiation.nucleation_units, Network.Irradiation.nucleation_no_units, Network.Irradiation.nucleation_bounds, Network.Irradiation.sinks, Network.Irradiation.sinks_zero, Network.Irradiation.rate_of_options, Network.Irradiation.stale, Network.Irradiation.sinks_area |
| C106 | C Q P | Solver.Carried.carried_at, Solver.Carried.carried_partial, Solver.Carried.reset_receding, Solver.Carried.neighbours_own, Solver.Carried.single_zero, Solver.Carried.never_agree, Solver.Carried.corrected, Solver.Carried.uniform_partial |
| C106 | Q P | Solver.Carried.outside, Solver.Carried.own_temperatures, Solver.Carried.surface_two_temperatures, Solver.Carried.stays |
| C107 | C Q P | Network.Formation.formation_isSome, Network.Formation.formation_values, Network.Formation.energyOf_iff, Network.Formation.readRows_spec, Network.Formation.file4_read, Network.Formation.void_binding, Network.Formation.missing_species, Network.Formation.stale, Network.Formation.stale_rate, Network.Formation.repeated, Network.Formation.repeated_case, Network.Formation.no_file, Network.Formation.void_no_file |
| C108 | C Q P | Network.Anisotropy.mean3_spec, Network.Anisotropy.unique, Network.Anisotropy.between, Network.Anisotropy.visit_moves, Network.Anisotropy.after_moves, Network.Anisotropy.after_rests, Network.Anisotropy.temperature, Network.Anisotropy.directions, Network.Anisotropy.tables_pos, Network.Anisotropy.rates_defined, Network.Anisotropy.nine_rest, Network.Anisotropy.four_five_rest, Network.Anisotropy.zero_kelvin, Network.Anisotropy.group_origin, Network.Anisotropy.two_vacancies |
| C11 | C Q P | Network.Conn.connectivity_correct, Network.Conn.fill_rows, Network.Conn.fill_schedule_independent, Network.Conn.Fill.fill_no_error, Network.Conn.Fill.fill_progress, Network.Conn.getPosition_spec, Network.Conn.getPosition_inj, Network.Conn.counts_eq |
| C12 | C Q P | Network.Gen.generation_correct, Network.Gen.Pass.construct_rows, Network.Gen.Pass.construct_progress |
| C13 | C Q P | Network.Numbering.dof_bijection, Network.Numbering.momentId_isSome, Network.Numbering.dof_hole_two_grouped_one_slot |
| C13 | none | Network.Numbering.slotTables_sorted, Network.Numbering.slotTables_shared |
| C14 | C Q P | Network.Numbering.Chain.collection_bijection, Network.Numbering.Chain.resize_partial |
| C14 | P | Network.Numbering.Chain.resize_grow_loses |
| C15 | C Q P | Util.Stepper.time_eq, Util.Stepper.time_strictMono, Util.Stepper.loop_terminates, Util.Growth.growth_loop_terminates, Util.Growth.shrinking_loop_diverges |
| C15 | Q P | Util.Stepper.loop_bounded |
| C16 | C Q P | Util.Growth.growth_bounds, Util.Growth.growth_reaches, Util.Growth.shrink_bounds, Util.Growth.growth_first_exceeds, Util.Ramp.ramp_value, Util.Ramp.ramp_bounds, Util.Ramp.ramp_bounds_desc, Util.Ramp.ramp_zero_steps |
| C17 | C Q P | Util.Growth.partialSumAt_eq, Util.Growth.timeAtStep_eq, Util.Growth.valAt_partial, Util.Growth.valAt_saturated, Util.Growth.at_ignores_initialStep |
| C17 | Q P | Util.Growth.valAt_constant |
| C18 | C Q P | Util.Leg.restart_once_partial, Util.Leg.restart_repeated_partial, Util.Leg.second_restart_differs |
| C19 | C Q P | Network.Const.sub_network_flux_partial, Network.Const.sub_network_total_partial, Network.ProdRxn.constant_rates_partial, Network.ProdRxn.constant_rates_covered, Network.DissRxn.constant_rates_partial, Network.DissRxn.constant_rates_covered_partial, Network.Const.constant_reactions_flux, Network.ConstRxn.constant_jacobian, Network.Const.both_in_lost, Network.Const.second_in_wrong, Network.Const.diss_moment_wrong, Network.ConstOther.sink_exact, Network.ConstOther.tm_lost, Network.ConstOther.nuc_lost, Network.ConstOther.resol_rates_partial, Network.ConstOther.tm_position_invalid, Network.ConstOther.resol_position_invalid |
| C19 | Q P | Network.ProdRxn.constant_connectivities, Network.DissRxn.constant_connectivities, Network.ConstRxn.constant_partials_covered, Network.ConstOther.tm_gap, Network.ConstOther.tm_partial |
| C20 | C Q P | Network.Sub.cluster_map, Network.Sub.map_nodup, Network.Sub.maps_disjoint, Network.Sub.maps_partition, Network.Sub.back_map, Network.Sub.momentId_distinct, Network.Sub.scatter_spec, Network.Sub.gather_spec, Network.Sub.gather_faithful, Network.Sub.moments_lost |
| C20 | P | Network.Sub.moment_lost_witness, Network.Sub.missing_bound_shifts |
| C21 | C Q P | Network.Sub.csr_describes, Network.Sub.getPosition_marked, Network.Sub.getPosition_inj, Network.Sub.getPosition_surj, Network.Sub.rate_array |
| C22 | C Q P | Flux.handed_over, Flux.handed_over_partial, Flux.sum_over_subs_partial, Flux.lost_amount, Flux.repeated_cluster_loses, Flux.zr_sub_source, Flux.zr_interstitial, Flux.zr_split, Flux.alloy_set |
| C22 | Q P | Flux.kernel_any_order, Flux.zr_set_ineffective, Flux.alloy_repeated_stops |
| C23 | C Q P | Flux.implanted_integral, Flux.implanted_nonneg, Flux.implanted_value, Flux.recompute_fresh, Flux.recompute_history, Flux.reads_exist, Flux.customFit_eq, Flux.w100_nonneg, Flux.w211_nonneg, Flux.w110_w111_negative, Flux.w110_negative_flux, Flux.stale_norm |
| C23 | Q P | Flux.implanted_ends, Flux.implanted_none, Flux.customFit_nonneg, Flux.pointValue_eq, Flux.recompute_no_grid, Flux.tiny_grid |
| C24 | C Q P | Util.Interp.exact_at, Util.Interp.linear_between, Util.Interp.within |
| C24 | Q P | Util.Interp.inside, Util.Interp.before, Util.Interp.after, Util.Interp.defined, Util.Interp.empty_undefined, Util.Interp.cleared_undefined |
| C25 | C Q P | Flux.fluence_total, Flux.computeFluence_spec, Flux.fluence_bad_restart |
| C25 | Q P | Flux.fluence_start, Flux.fluence_constant |
| C26 | C Q P | Transport.conc1_eq, Transport.conc2_eq, Transport.conc3_eq, Transport.conc1_flux, Transport.flux_form1, Transport.spacing_shared, Transport.spacing_pos, Transport.flux_form_grid, Transport.cell_width_not_conserved, Transport.variable_not_conserved, Transport.conc2_split, Transport.conc3_split, Transport.flux_form2, Transport.flux_form3, Transport.conc1_linear, Transport.constant_vanishes, Transport.linear_vanishes, Transport.minimum_principle, Transport.diffusing_spec, Transport.addAll_spec, Transport.writeAll_spec |
| C27 | C Q P | Transport.Mask.build_iff, Transport.Mask.rows2_exact, Transport.Mask.rows3_exact, Transport.Mask.advDepth_uniform, Transport.Mask.mask1_spec, Transport.Mask.mask1_defined, Transport.Mask.mask1_partial, Transport.Mask.mask1_shifted, Transport.Mask.mask2_spec, Transport.Mask.mask2_yplane_partial, Transport.Mask.mask2_last_column, Transport.Mask.mask3_spec, Transport.Mask.mask1_wrong_point, Transport.Mask.mask1_wrong_column, Transport.Mask.mask1_out_of_bounds, Transport.Mask.adv_out_of_bounds, Transport.Mask.adv_aligned |
| C27 | Q P | Transport.Mask.rows1_exact, Transport.Mask.advDepth_defined, Transport.Mask.adv_grid_overrun |
| C28 | C Q P | Transport.Adv.surf_eq, Transport.Adv.x_eq_off, Transport.Adv.x_eq_on, Transport.Adv.x_one_dimensional, Transport.Adv.x_on_sink_missing, Transport.Adv.y_eq, Transport.Adv.z_eq, Transport.Adv.stencil_away, Transport.Adv.signs, Transport.Adv.surf_flux, Transport.Adv.surf_conserved, Transport.Adv.surf_gradient_not_conserved, Transport.Adv.y_off_flux, Transport.Adv.y_on_flux, Transport.Adv.y_conserved, Transport.Adv.z_as_y, Transport.Adv.x_as_y |
| C28 | Q P | Transport.Adv.drift |
| C29 | C Q P | Transport.Soret.rate_eq_partial, Transport.Soret.rate_increment_partial, Transport.Soret.skipped_wrong, Transport.Soret.isothermal |
| C29 | Q P | Transport.Soret.betas_first, Transport.Soret.betas_stale |
| C30 | C Q P | Transport.Heat.alpha_spec, Transport.Heat.atInterface_spec, Transport.Heat.atInterface_unique, Transport.Heat.hasDerivAt_beta, Transport.Heat.hasDerivAt_dBeta, Transport.Heat.hasDerivAt_gamma, Transport.Heat.hasDerivAt_bulkFlux, Transport.Heat.neighbours, Transport.Heat.neighbours_transverse, Transport.Heat.interior_mid, Transport.Heat.interior_partial, Transport.Heat.surface_mid, Transport.Heat.surface_wrong, Transport.Heat.bulk_mid, Transport.Heat.bulk_flux_mid, Transport.Heat.interface_wrong |
| C31 | C Q P | Solver.Grid.uniform_good, Solver.Grid.nonuniform_good, Solver.Grid.nonuniform_announced, Solver.Grid.step_deep, Solver.Grid.geometric_good, Solver.Grid.geometric_ratio, Solver.Grid.read_good, Solver.Grid.cheby_inner_partial, Solver.Grid.cheby_zero_width, Solver.Grid.cheby_hxLeft, Solver.Grid.cheby_none, Solver.Grid.good_spacings, Solver.Grid.tempGrid_increasing, Solver.Grid.tempGrid_covers, Solver.Grid.tempGrid_first |
| C31 | Q P | Solver.Grid.read_short |
| C32 | C Q P | Solver.Move.grow_spec, Solver.Move.grow_length, Solver.Move.retract_spec, Solver.Move.trim_spec, Solver.Move.moves_increasing |
| C33 | C Q P | Solver.TempTransfer.interp_between, Solver.TempTransfer.interp_exact, Solver.TempTransfer.interp_outside, Solver.TempTransfer.interpolate_partial, Solver.TempTransfer.interpolate_same, Solver.TempTransfer.left_gets_last, Solver.TempTransfer.uniform_left_gets_last, Solver.TempTransfer.regrid_last |
| C33 | Q P | Solver.TempTransfer.gathered_all, Solver.TempTransfer.stale_gather, Solver.TempTransfer.interpolate_independent |
| C34 | C Q P | IO.Ragged.write_eq, IO.Ragged.read_eq, IO.Ragged.round_trip, IO.Ragged.round_trip_ranks |
| C34 | Q P | IO.Ragged.read_past, IO.Ragged.empty_rank_undefined, IO.Ragged.too_large_lost |
| C35 | C Q P | IO.Sparse.restart_close, IO.Sparse.checkpoint_round_trip, IO.Sparse.cold_temperature, IO.Sparse.transfer_stale |
| C35 | Q P | IO.Sparse.overlay_save, IO.Sparse.restart_save, IO.Sparse.transfer0, IO.Sparse.all_negligible, IO.Sparse.smaller_network |
| C36 | C Q P | IO.Steps.name_inj, IO.Steps.add_times, IO.Steps.last_added, IO.Steps.history_times_partial, IO.Steps.lookup_partial, IO.Steps.lookup_ignores_control, IO.Steps.repeat_undefined, IO.Steps.wrong_group_updated |
| C36 | Q P | IO.Steps.last_none |
| C37 | C Q P | Solver.FillMap.toPetsc_eq, Solver.FillMap.toPetsc_row, Solver.FillMap.pairs_sorted, Solver.FillMap.pairs_row, Solver.FillMap.diagonal_row, Solver.FillMap.pairs_position, Solver.FillMap.nw_slot |
| C37 | P | Solver.FillMap.coords_eq, Solver.FillMap.extra_row |
| C37 | Q P | Solver.FillMap.pairs_eq |
| C38 | C Q P | Network.Sizes.loop_ends, Network.Sizes.adapt_eq, Network.Sizes.adapt_least, Network.Sizes.adapt_defined, Network.Sizes.adapt_some, Network.Sizes.adapt_twice, Network.Sizes.adapt_wrap, Network.Sizes.zr_sizes, Network.Sizes.gasV_grouped, Network.Sizes.alloy_sizes, Network.Sizes.alloy_fits_partial, Network.Sizes.alloy_void_misfit, Network.Sizes.alloy_default_width, Network.Sizes.psi_vacancy, Network.Sizes.psi_helium, Network.Sizes.psi_hydrogen, Network.Sizes.psi_no_extra, Network.Sizes.psi_defined, Network.Sizes.psi_species, Network.Sizes.psi_fits_partial, Network.Sizes.psi_no_width |
| C38 | P | Network.Sizes.gasV_plain |
| C38 | Q P | Network.Sizes.loop_iff, Network.Sizes.psi_overrefined |
| C38 | none | Network.Sizes.psi_wrap, Network.Sizes.psi_hydrogen_dropped |
| C39 | C Q P | Options.Processes.setList_spec, Options.Processes.setString_spec, Options.Processes.calls_spec, Options.Processes.line_forgets, Options.Processes.empty_list_unset, Options.Processes.rejected_half_done |
| C40 | C Q P | Options.NetParams.set_defined, Options.NetParams.set_last, Options.NetParams.zrSub_cover |
| C40 | P | Options.NetParams.set_one, Options.NetParams.alloySub_void_lost, Options.NetParams.zrSub_single, Options.NetParams.zrSub_pure |
| C40 | Q P | Options.NetParams.set_history, Options.NetParams.set_pureV, Options.NetParams.set_five, Options.NetParams.alloySub_spec, Options.NetParams.alloySub_short, Options.NetParams.zrSub_spec |
| C41 | C Q P | Util.Tokenizer.tokens_flatten, Util.Tokenizer.tab_not_separator, Util.Tokenizer.malformed_accepted |
| C41 | P | Util.Tokenizer.extract_word |
| C41 | Q P | Util.Tokenizer.tokens_unique, Util.Tokenizer.reads_tokens, Util.Tokenizer.token_ok, Util.Tokenizer.tokens_join, Util.Tokenizer.tokens_normalise, Util.Tokenizer.tokens_append, Util.Tokenizer.ints_length, Util.Tokenizer.ints_append, Util.Tokenizer.extract_digits, Util.Tokenizer.extract_minus, Util.Tokenizer.extract_plus |
| C42 | C Q P | Perf.Timers.run_value, Perf.Timers.rejected, Perf.Timers.value_mono, Perf.Timers.scopes_sum, Perf.Timers.clock_back, Perf.Timers.epoch_lost, Perf.Timers.nested_throws |
| C42 | P | Perf.Timers.count_eq |
| C43 | C Q P | Perf.Stats.parse_joined, Perf.Stats.names_union, Perf.Stats.statistics_spec, Perf.Stats.aggregate_spec, Perf.Stats.hw_statistics, Perf.Stats.negative_max, Perf.Stats.hw_overcount |
| C43 | Q P | Perf.Stats.marshal_eq, Perf.Stats.gather_eq |
| C44 | C Q P | Network.Products.psiIV_exact, Network.Products.psiII_exact, Network.Products.zrIV_exact, Network.Products.zrIB_exact, Network.Products.zrVB_exact, Network.Products.sameKind_exact, Network.Products.alloyIL_exact, Network.Products.alloyVL_exact, Network.Products.alloyVL_duplicates, Network.Products.alloyPF_sizes_partial, Network.Products.alloyPF_largest_missing, Network.Products.alloyPF_negative_unreached |
| C44 | Q P | Network.Products.alloyPF_straddle_empty |
| C45 | C Q P | Network.Products.general_exact_partial, Network.Products.general_negative_none, Network.Products.general_straddle_witness |
| C45 | Q P | Network.Products.general_straddle_none, Network.Products.tmSearch_balanced |
| C45 | none | Network.Products.tmSearch_unbalanced |
| C46 | C Q P | Network.Reflect.span_exact, Network.Reflect.one_V_exact, Network.Reflect.dev_span, Network.Reflect.one_V_dev, Network.Reflect.reflected_sum_dev, Network.Reflect.dispOne_eq, Network.Reflect.side_chosen, Network.Reflect.own_side, Network.Reflect.reflection_flips_moment |
| C46 | P | Network.Reflect.reflected_eq_span |
| C46 | Q P | Network.Reflect.dispMany_eq, Network.Reflect.toSigned_wrap |
| C47 | C Q P | Network.tm_select_iff, Network.tm_select_covered, Network.tm_tables_closed, Network.tm_tables_used, Network.tm_tables_desorption, Network.tm_tables_desorption_smallest, Network.tm_tables_depth_bound |
| C47 | Q P | Network.tm_select_select |
| C48 | C Q P | Network.Bursting.no_gas, Network.Bursting.released, Network.Bursting.released_content, Network.Bursting.vacancies, Network.Bursting.vacancies_kept_partial, Network.Bursting.transfer_group, Network.Bursting.defined, Network.Bursting.grouped_vacancies_lost, Network.Bursting.grouped_interstitials_undefined, Network.Bursting.moment_lost, Network.Bursting.factor_zero |
| C48 | none | Network.Bursting.tritium_as_deuterium |
| C49 | C Q P | Network.Totals.totalConcentration_eq, Network.Totals.totalAtoms_eq, Network.Totals.totalRadius_eq, Network.Totals.totalTrapped_eq, Network.Totals.totals_linear, Network.Totals.totals_mono, Network.Totals.totals_additive, Network.Totals.concentration_exact, Network.Totals.atoms_gap, Network.Totals.atoms_exact, Network.Totals.exact_from, Network.Totals.atoms_wrong, Network.Totals.trapped_mixed, Network.Totals.totalsImpl_eq, Network.Totals.getTotalsVec_eq, Network.Totals.seven_rejected |
| C50 | C Q P | Util.InOrder.in_order, Util.InOrder.starts_after_barrier, Util.InOrder.zero_last, Util.InOrder.no_deadlock, Util.InOrder.bounded, Util.InOrder.completes |
| C50 | Q P | Util.InOrder.single_deadlock |
| C51 | C Q P | Network.Species.loop_range, Network.Species.all_species, Network.Species.noI_species, Network.Species.noI_exact_iff, Network.Species.noI_exact_networks, Network.Species.id_walk, Network.Species.moment_in_range |
| C51 | P | Network.Species.cast_id, Network.Species.cast_invalid, Network.Species.isVacancy_labels |
| C51 | Q P | Network.Species.visits_iff, Network.Species.loop_endless, Network.Species.noI_misses, Network.Species.group_range |
| C51 | none | Network.Species.isVacancy_basal |
| C52 | C Q P | Flux.toInt_spec, Flux.pulse_on_iff, Flux.pulse_off, Flux.pulse_total_partial, Flux.pulse_zero, Flux.pulse_overflow |
| C53 | C Q P | Solver.Coo.placed_partial, Solver.Coo.placed_end_partial, Solver.Coo.placed1_partial, Solver.Coo.stop_misplaces, Solver.Coo.temp_once_partial, Solver.Coo.padding_overflow, Solver.Coo.padding_out_of_bounds, Solver.Coo.ygb_wrong_column, Solver.Coo.ygb_wrong_on_sink, Solver.Coo.ygb_right_column, Solver.FillMap.nw_slot |
| C53 | Q P | Solver.Coo.temp_twice, Solver.Coo.temp_twice_robin |
| C54 | C Q P | Solver.Move.segment_some, Solver.Move.segment_defined, Solver.Move.transfer_linear, Solver.Move.transfer_exact, Solver.Move.transfer_between, Solver.Move.grow_not_above, Solver.Move.grow_negative, Solver.Move.holder_unique, Solver.Move.back_account, Solver.Move.up_account, Solver.Move.back_account_wrong |
| C54 | Q P | Solver.Move.retraction_treated_as_growth, Solver.Move.back_spec |
| C55 | C Q P | Options.Comments.quoted_lost, Options.Comments.lines_glued, Options.Comments.not_idempotent |
| C55 | P | Options.Comments.strip_doc, Options.Comments.strip_plain |
| C56 | C Q P | Solver.Stride.step_spec, Solver.Stride.run_window, Solver.Stride.run_lower, Solver.Stride.run_count, Solver.Stride.every_step, Solver.Stride.backlog, Solver.Stride.move_backlog, Solver.Stride.first_step, Solver.Stride.restart_same, Solver.Stride.restart_count, Solver.Stride.restart_extra |
| C56 | Q P | Solver.Stride.zero_stride |
| C57 | C Q P | Flux.Custom.readRows_render, Flux.Custom.readRows_bad, Flux.Custom.recompute_setup, Flux.Custom.custom_integral, Flux.Custom.norm_pos_iff, Flux.Custom.row_lost, Flux.Custom.pulsed_spec, Flux.Custom.pulsed_zero, Flux.Custom.pulsed_profile, Flux.Custom.fitOf_eq, Flux.Custom.sync_entry |
| C57 | Q P | Flux.Custom.setup_defined, Flux.Custom.instant_total |
| C58 | C Q P | Network.Rates.sphere_symm, Network.Rates.alloy_symm, Network.Rates.zr_symm_partial, Network.Rates.zr_mobile_small, Network.Rates.zr_pair_symm, Network.Rates.zr_asymmetric, Network.Rates.sphere_pos, Network.Rates.alloyLoop_pos, Network.Rates.alloy_pos, Network.Rates.efficiency_pos, Network.Rates.zrLoopRate_pos, Network.Rates.zr_pos, Network.Rates.zr_immobile_undefined, Network.Rates.sphere_reverse, Network.Rates.alloy_reverse, Network.Rates.zr_reverse, Network.Rates.mass_action, Network.Rates.kMinus_anti, Network.Rates.kMinus_mono, Network.Rates.alloyBinding_bounds, Network.Rates.alloy_slower, Network.Rates.increments, Network.Rates.alloyBinding_mono, Network.Rates.zrSink_pos, Network.Rates.arrhenius_law, Network.Rates.arrhenius_order, Network.Rates.profile_slope, Network.Rates.sphere_flux, Network.Rates.core_flux, Network.Rates.alloy_loop, Network.Rates.efficiency_isotropic, Network.Rates.zr_loop, Network.Rates.increment_three, Network.Rates.alloyBinding_fit, Network.Rates.zr_mobile, Network.Rates.zrSink_large |
| C59 | C Q P | Network.NeFile.entry_defined, Network.NeFile.entry_lowest, Network.NeFile.diffusivity_bounds, Network.NeFile.pairRate_eq, Network.NeFile.pairRate_symm, Network.NeFile.productRate_eq, Network.NeFile.productRate_symm, Network.NeFile.tables_symm, Network.NeFile.last_line, Network.NeFile.last_line_none, Network.NeFile.file_balance, Network.NeFile.sink_balance, Network.NeFile.recombination_unbalanced, Network.NeFile.recombination_unmapped, Network.NeFile.coefficient_eq, Network.NeFile.reverse_outside, Network.NeFile.switched_off, Network.NeFile.first_radius, Network.NeFile.unlisted, Network.NeFile.link_law, Network.NeFile.coefficient_law, Network.NeFile.sink_bias |
| C60 | C Q P | Network.Psi.maxHePerV_mono, Network.Psi.select_point, Network.Psi.select_group, Network.Psi.select_group_lost, Network.Psi.select_group_over, Network.Psi.select_flags, Network.Psi.interstitial_bound, Network.Psi.helium_bound, Network.Psi.helium_bound_fit, Network.Psi.vacancy_bound_fit, Network.Psi.look_pos, Network.Psi.table_one, Network.Psi.table_two_partial, Network.Psi.table_two_outside, Network.Psi.hydrogen_one, Network.Psi.lower_holds, Network.Psi.interpolated_spec, Network.Psi.gas_emission_interpolated, Network.Psi.binding_ge, Network.Psi.boundary_binding, Network.Psi.he_nine, Network.Psi.useTable_iff, Network.Psi.interpolated_narrow |
| C60 | Q P | Network.Psi.maxHePerV_pos, Network.Psi.hev_num, Network.Psi.formation_num |
| C61 | C Q P | Solver.Retention.surface_agree, Solver.Retention.runLoop_left, Solver.Retention.restart_same, Solver.Retention.solve3_total, Solver.Retention.solve_first_last, Solver.Retention.solve_total_partial, Solver.Retention.moves_lose, Solver.Retention.outgoing_eq, Solver.Retention.balance_partial, Solver.Retention.balance_neighbour, Solver.Retention.balance_widening |
| C61 | Q P | Solver.Retention.runLoop_skip, Solver.Retention.burst_last |
| C62 | C Q P | Util.LineLoop.clusters_iff, Util.LineLoop.reactions_read, Util.LineLoop.reactions_endless, Util.LineLoop.single_endless, Util.LineLoop.carriage_return |
| C62 | P | Util.LineLoop.pieces_text |
| C62 | Q P | Util.LineLoop.tokens_nil, Util.LineLoop.plain_iff, Util.LineLoop.text_pieces, Util.LineLoop.custom_ends, Util.LineLoop.custom_read, Util.LineLoop.custom_rejected |
| C63 | C Q P | Network.Radius.psi_volume, Network.Radius.psi_mono, Network.Radius.psi_one, Network.Radius.psiV_zero, Network.Radius.psiRadius_pos, Network.Radius.psiRadius_groupI, Network.Radius.psiRadius_groupV, Network.Radius.psiRadius_between, Network.Radius.psi_mobile, Network.Radius.psi_migration, Network.Radius.psi_group_mobility, Network.Radius.psi_group_small, Network.Radius.ne_volume, Network.Radius.neRadius_spec, Network.Radius.fe_volume, Network.Radius.feRadius_spec, Network.Radius.fe_mobile, Network.Radius.zr_volume, Network.Radius.zr_basal, Network.Radius.zrRadius_group_partial, Network.Radius.zrRadius_straddles, Network.Radius.zrRadius_pos, Network.Radius.zr_mobile, Network.Radius.alloy_volume, Network.Radius.alloy_mono, Network.Radius.alloyRadius_group, Network.Radius.alloyRadius_pos, Network.Radius.alloy_mobile, Network.Radius.alloyDiffusion_value, Network.Radius.alloyDiffusion_group, Network.Radius.psi_axis_mobility, Network.Radius.psi_six_faster, Network.Radius.ne_axis_radius, Network.Radius.fe_axis_mobility, Network.Radius.alloy_kinds, Network.Radius.psi_helium_values |
| C64 | C Q P | Network.Select.neSelect_point, Network.Select.neSelect_group, Network.Select.neRefine_inside, Network.Select.neRefine_small, Network.Select.neRefine_axis, Network.Select.feSelect_point, Network.Select.feSelect_group, Network.Select.zrSelect_point, Network.Select.zrSelect_group, Network.Select.zrRefine_small, Network.Select.zrRefine_top, Network.Select.alloySelect_point, Network.Select.alloySelect_group, Network.Select.alloyRefine_small, Network.Select.narrow_flag, Network.Select.zrRefine_axis, Network.Select.zr_beyond, Network.Select.alloy_beyond, Network.Select.alloyRefine_axis |
| C64 | none | Network.Select.neSelect_group_lost, Network.Select.alloySelect_group_lost |
| C65 | C Q P | Solver.Events.event_exclusive, Solver.Events.never_throws, Solver.Events.back_least, Solver.Events.back_ends, Solver.Events.back_overrun, Solver.Events.reported, Solver.Events.quiet_total, Solver.Events.growth_balance, Solver.Events.erosion_balance, Solver.Events.erosion_balance_partial, Solver.Events.handed_wrong, Solver.Events.bursts_iff, Solver.Events.bursts_large, Solver.Events.bursts_shallow, Solver.Events.bursts_no_flux, Solver.Events.bursts_mono, Solver.Events.radius_mono, Solver.Events.radius_one, Solver.Events.radius_zero, Solver.Events.bursts_empty, Solver.Events.clamp_large, Solver.Events.clamp_sign, Solver.Events.clamp_close, Solver.Events.happened_mem |
| C65 | Q P | Solver.Events.event_spec, Solver.Events.event_repeat, Solver.Events.handed_first |
| C65 | none | Solver.Events.decision_spec |
| C66 | C Q P | Solver.Sweep.evaluate_sync, Solver.Sweep.evaluations_fresh, Solver.Sweep.surface_index, Solver.Sweep.above_undefined, Solver.Sweep.tables_same_partial, Solver.Sweep.tables_differ, Solver.Sweep.select_unique, Solver.Sweep.select_once |
| C66 | Q P | Solver.Sweep.calls_partial, Solver.Sweep.calls_fixed, Solver.Sweep.calls_interior, Solver.Sweep.calls_surface, Solver.Sweep.calls_bulk, Solver.Sweep.evaluate_quiet, Solver.Sweep.evaluations_shared, Solver.Sweep.depths_next |
| C67 | C Q P | Options.Lists.boundaries_spec, Options.Lists.coupling_spec, Options.Lists.steps_zero, Options.Lists.pulse_undefined, Options.Lists.grouping_spec, Options.Lists.grouping_undefined, Options.Lists.rng_seed, Options.Lists.rng_undefined, Options.Lists.rng_negative, Options.Lists.rng_rejects, Options.Lists.forms_differ, Options.Lists.initial_spec, Options.Lists.place_distinct, Options.Lists.place_lost, Options.Lists.admitted_iff |
| C67 | P | Options.Lists.boundaries_single, Options.Lists.pulse_spec, Options.Lists.rankSeed_reproducible, Options.Lists.checkSet_read, Options.Lists.checkSet_ignored, Options.Lists.admitted_other |
| C67 | Q P | Options.Lists.fill_eq, Options.Lists.temp_spec, Options.Lists.grid_spec, Options.Lists.coupling_rejects, Options.Lists.setRadius_calls, Options.Lists.minSizes_spec, Options.Lists.minSizes_agree, Options.Lists.rankSeed_distinct, Options.Lists.rankSeed_value, Options.Lists.forms_agree, Options.Lists.petsc_words, Options.Lists.initial_complete, Options.Lists.initial_missing, Options.Lists.place_spec, Options.Lists.point_spec |
| C67 | none | Options.Lists.checkSet_absent, Options.Lists.petsc_text_lost |
| C68 | C Q P | Solver.Coupled.zr_line, Solver.Coupled.alloy_line, Solver.Coupled.diameter_between, Solver.Coupled.partial_le, Solver.Coupled.meaning_ranks, Solver.Coupled.diameter_sum, Solver.Coupled.counted_all, Solver.Coupled.roundTo_error, Solver.Coupled.roundTo_lt, Solver.Coupled.run_zero, Solver.Coupled.labels_increase, Solver.Coupled.run_later, Solver.Coupled.restart_reached, Solver.Coupled.restart_line, Solver.Coupled.small_steps, Solver.Coupled.checkpointName_inj, Solver.Coupled.restart_files |
| C68 | P | Solver.Coupled.asserts_unlimited, Solver.Coupled.names_roundtrip |
| C68 | Q P | Solver.Coupled.rates_spec, Solver.Coupled.rates_zero, Solver.Coupled.localSize_eq, Solver.Coupled.localSize_two, Solver.Coupled.solve_order, Solver.Coupled.run_appends, Solver.Coupled.lastStep_eq, Solver.Coupled.asserts_limited, Solver.Coupled.addAt_spec |
| C69 | C Q P | Network.Psi.grouped_positive, Network.Psi.same_species, Network.Psi.none_lost, Network.Psi.capacity, Network.Psi.hydrogen_over, Network.Psi.bubble_grouped, Network.Psi.bubble_deuterium, Network.Psi.bubble_tritium, Network.Psi.hydrogen_uniform, Network.Psi.interstitial_grouped, Network.Psi.vacancy_grouped, Network.Psi.below_min_grouped, Network.Psi.sizes_partial, Network.Psi.pure_beyond, Network.Psi.widths, Network.Psi.edge_uniform, Network.Select.fe_grouped, Network.Select.fe_grouped_iff, Network.Select.fe_sizes |
| C69 | Q P | Network.Psi.refine_true, Network.Psi.below_min, Network.Psi.pure_vacancies |
| C70 | C Q P | Solver.Surface.up_done, Solver.Surface.up_outside, Solver.Surface.line_grows, Solver.Surface.top_outside, Solver.Surface.back_done, Solver.Surface.line_atoms, Solver.Surface.line_stays, Solver.Surface.sweep_atoms, Solver.Surface.sweep_left, Solver.Surface.minSurf_spec, Solver.Surface.grown_atoms, Solver.Surface.left_others, Solver.Surface.left_itself, Solver.Surface.receded, Solver.Surface.reported_moves_partial, Solver.Surface.reported_stays, Solver.Surface.moved_unreported, Solver.Surface.account3, Solver.Surface.sides_all, Solver.Surface.filled_exact, Solver.Surface.emptied_exact |
| C70 | Q P | Solver.Surface.roomAbove_true, Solver.Surface.minSurf3_outside, Solver.Surface.receded_again, Solver.Surface.reports_eq, Solver.Surface.account2, Solver.Surface.sides_one, Solver.Surface.warm_spec |
| C71 | C Q P | Solver.Lines.flux_trapped, Solver.Lines.jacobian_trapped, Solver.Lines.consistent_partial, Solver.Lines.jacobian_mixes, Solver.Lines.jacobian_exceeds, Solver.Lines.jacobian_waits, Solver.Lines.split_sum, Solver.Lines.last_line, Solver.Lines.rates_partial, Solver.Lines.rates_other, Solver.Lines.again_one, Solver.Lines.again_three, Solver.Lines.yFraction_zero, Solver.Lines.yPosition_zero, Solver.Lines.renewed_inside, Solver.Lines.skipped2_iff, Solver.Lines.skipped3_count, Solver.Lines.ownsRead_iff, Solver.Lines.ownsRead_divided |
| C71 | Q P | Solver.Lines.split_equal, Solver.Lines.network_same, Solver.Lines.renewed_line, Solver.Lines.renewed_lost, Solver.Lines.renewed_surface, Solver.Lines.renewed_initial |
| C72 | C Q P | Flux.Defects.attenuation_off, Flux.Defects.attenuation_bounds, Flux.Defects.attenuation_decreasing, Flux.Defects.attenuation_half, Flux.Defects.attenuation_mirror, Flux.Defects.available_eq, Flux.Defects.available_sign, Flux.Defects.fuel_pairs, Flux.Defects.fuel_again, Flux.Defects.fuel_missing, Flux.Defects.fuel_negative, Flux.Defects.fuel_depends, Flux.Defects.addRow_pure, Flux.Defects.addRow_other, Flux.Defects.weight_bounds, Flux.Defects.factorsOf_inside, Flux.Defects.factorsOf_two, Flux.Defects.iron_balance, Flux.Defects.damage_eq, Flux.Defects.generation_getD, Flux.Defects.writes_outside, Flux.Defects.alloyBin_rate, Flux.Defects.alloy_total, Flux.Defects.alloy_pairs_partial, Flux.Defects.alloy_unequal, Flux.Defects.boltzmann |
| C72 | Q P | Flux.Defects.profile_used, Flux.Defects.profile_ignored, Flux.Defects.constant_used, Flux.Defects.fuel_skipped, Flux.Defects.iron_never_throws, Flux.Defects.generation_length, Flux.Defects.zr_again |
| C72 | none | Flux.Defects.writes_inside_0D, Flux.Defects.cascade_tables |
| C73 | C Q P | Network.Pairs.alloy_exact_partial, Network.Pairs.alloy_recombine_partial, Network.Pairs.alloy_diss, Network.Pairs.alloy_pf_sound_partial, Network.Pairs.alloy_once_partial, Network.Pairs.alloy_limit_ii, Network.Pairs.alloy_limit_vp, Network.Pairs.alloy_il_lost, Network.Pairs.alloy_half, Network.Pairs.zr_exact, Network.Pairs.zr_recombine, Network.Pairs.zr_basal9, Network.Pairs.zr_basal9_stuck, Network.Pairs.optNet_singles |
| C73 | P | Network.Pairs.alloy_immobile, Network.Pairs.alloy_sinks, Network.Pairs.zr_sinks |
| C73 | Q P | Network.Pairs.alloy_symm, Network.Pairs.zr_symm, Network.Pairs.alloy_pf_never, Network.Pairs.zr_diss |
| C73 | none | Network.Pairs.zr_immobile |
| C74 | C Q P | Network.Dispatch.psi_exact_partial, Network.Dispatch.psi_annihilation, Network.Dispatch.psi_symm, Network.Dispatch.psi_immobile, Network.Dispatch.psi_straddle_none, Network.Dispatch.psi_diss, Network.Dispatch.psi_emission, Network.Dispatch.psi_second_conditions, Network.Dispatch.psi_second_conserves, Network.Dispatch.modified_length, Network.Dispatch.modified_order, Network.Dispatch.modified_missing, Network.Dispatch.fe_exact_partial, Network.Dispatch.fe_annihilation, Network.Dispatch.fe_symm, Network.Dispatch.fe_diss, Network.Dispatch.fe_sinks, Network.Dispatch.ne_exact_partial, Network.Dispatch.ne_annihilation, Network.Dispatch.ne_symm, Network.Dispatch.ne_interstitials, Network.Dispatch.ne_interstitials_witness, Network.Dispatch.ne_diss, Network.Dispatch.ne_sinks, Network.Dispatch.ne_resolution, Network.Dispatch.straddle_witness |
| C74 | Q P | Network.Dispatch.psi_sinks |
| C75 | C Q P | Network.Dispatch.rxns_sum, Network.Dispatch.rxns_content, Network.Dispatch.prod_conserves, Network.Dispatch.diss_conserves, Network.Dispatch.fe_network_partial, Network.Dispatch.ne_network_partial, Network.Dispatch.psi_network_partial, Network.Dispatch.single_content, Network.Dispatch.two_axes_witness, Network.Dispatch.flipped_witness, Network.Dispatch.mutations_mem, Network.Dispatch.mutations_nodup, Network.Dispatch.mut_defined_iff, Network.Dispatch.mut_enough, Network.Dispatch.mutRxns_mem, Network.Dispatch.mut_conserves, Network.Dispatch.psi_all_network_partial, Network.Dispatch.mut_order |
| C76 | C Q P | Network.Fuel.network_content_partial, Network.Fuel.flux_difference, Network.Fuel.annihilate_weight, Network.Fuel.binding_range, Network.Fuel.xenon_derivative, Network.Fuel.vacancy_derivative, Network.Fuel.binding_derivative |
| C76 | Q P | Network.Fuel.binding_comm, Network.Fuel.binding_noV, Network.Fuel.pair_sum |
| C77 | C Q P | Network.Bind.zrV_mono, Network.Bind.zrV_mono', Network.Bind.zrV_jump, Network.Bind.zrV_bounds, Network.Bind.zrI_mono, Network.Bind.zrI_bounds, Network.Bind.basal_mono, Network.Bind.basal_200, Network.Bind.zrBinding_spec, Network.Bind.basal_nan, Network.Bind.capture, Network.Bind.capture_1000, Network.Bind.fe_range, Network.Bind.fe_undefined, Network.Bind.fe_table, Network.Bind.fe_trap, Network.Bind.fe_pair, Network.Bind.fe_vacancy, Network.Bind.fe_helium, Network.Bind.fe_bubble, Network.Bind.fe_strength, Network.Bind.fe_sinks, Network.Bind.feBias_spec, Network.Bind.capture_power, Network.Bind.capture_transition, Network.Bind.basal_middle_mono |
| C78 | C Q P | Network.Pairs.zr_lattice_partial, Network.Pairs.alloy_lattice_partial, Network.Pairs.zr_flip, Network.Pairs.rxns_lattice, Network.Pairs.prod_conserves, Network.Pairs.diss_conserves, Network.Pairs.zr_sound, Network.Pairs.alloy_sound |
| C79 | C Q P | Network.Dispatch.ready_ids, Network.Pairs.ready_ids, Network.Dispatch.fe_inside, Network.Dispatch.ne_inside, Network.Dispatch.ne_own_inside, Network.Dispatch.psi_inside_partial, Network.Pairs.zr_inside, Network.Pairs.alloy_inside, Network.Pairs.zr_network_partial, Network.inside_of, Network.Dispatch.psi_all_inside, Network.Dispatch.mut_invalid, Network.Dispatch.mut_defined_iff, Network.Pattern.joined_inside, Network.Pattern.zr_constant_inside, Network.Pattern.alloy_constant_inside |
| C79 | Q P | Network.constantReactions_within |
| C80 | C Q P | Solver.Grain.entries_count, Solver.Grain.into1_stencil_partial, Solver.Grain.into2_stencil_partial, Solver.Grain.into3_stencil_partial, Solver.Grain.into_gradient, Solver.Grain.accounts_agree, Solver.Grain.run_rate, Solver.Grain.total_partial, Solver.Grain.set_twice, Solver.Grain.restart_forgets, Solver.Grain.balance_partial, Solver.Grain.balance_widening, Solver.Grain.average_between, Solver.Grain.balance3_partial, Solver.Grain.balance2_partial, Solver.Grain.into3_rate |
| C80 | Q P | Solver.Grain.initGB_keeps, Solver.Grain.into_first, Solver.Grain.summed_processes |
| C81 | C Q P | Solver.Columns.loss, Solver.Columns.balance, Solver.Columns.walls_flat, Solver.Columns.balance_flat_partial, Solver.Columns.walls_leak, Solver.Columns.step_unaccounted, Solver.Columns.boundary_unaccounted, Solver.Columns.two_is_three, Solver.Columns.column_is_one, Solver.Columns.alike, Solver.Columns.alike_rate, Solver.Columns.reported_left, Solver.Columns.outgoingAdv_drift, Solver.Columns.adv_balance_partial, Solver.Columns.stale, Solver.Columns.advRate_product |
| C81 | Q P | Solver.Columns.location_last |
| C82 | C Q P | Network.Averages.two_axes, Network.Averages.volumeSum_eq, Network.Averages.ratioSum_eq, Network.Averages.spreadSum_eq, Network.Averages.over_pos, Network.Averages.ratio_iff, Network.Averages.ratio_between, Network.Averages.ratio_scale, Network.Averages.variance_eq, Network.Averages.variance_mean, Network.Averages.variance_nonneg, Network.Averages.wide_wrong, Network.Averages.wide_by, Network.Averages.byId, Network.Averages.byId_wrong, Network.Averages.columns_empty, Network.Averages.columns_mean, Network.Averages.columns_undefined, Network.Averages.volumeFraction_eq, Network.Averages.volumeFraction_method, Network.Averages.vacancy_found, Network.Averages.no_vacancy |
| C83 | C Q P | Solver.Written.write_eq, Solver.Written.file_rows, Solver.Written.tridyn_row, Solver.Written.tridyn_wrong, Solver.Written.profile_right, Solver.Written.added_entry, Solver.Written.line_alloy, Solver.Written.line_zr, Solver.Written.radius_between, Solver.Written.diameter_between, Solver.Written.partial_le, Solver.Written.zero_counts_all |
| C83 | P | Solver.Written.formats_accepted |
| C83 | Q P | Solver.Written.depth_loc, Solver.Written.ranks_points, Solver.Written.reduced, Solver.Written.average_entry |
| C84 | C Q P | Solver.Monitors.time_last, Solver.Monitors.status_late, Solver.Monitors.charges, Solver.Monitors.restored, Solver.Monitors.registered_active, Solver.Monitors.step_ok, Solver.Monitors.too_high, Solver.Monitors.seen, Solver.Monitors.run_fluence, Solver.Monitors.run_checkpoints, Solver.Monitors.restart_same, Solver.Monitors.doubled, Solver.Monitors.doubled_value, Solver.Monitors.never |
| C84 | Q P | Solver.Monitors.forgotten, Solver.Monitors.restart_values |
| C85 | C Q P | Solver.Loop.solve_ends, Solver.Loop.reported, Solver.Loop.first_loop, Solver.Loop.next_loop, Solver.Loop.one_loop, Solver.Loop.limits_lost, Solver.Loop.init_ok, Solver.Loop.solve_stack, Solver.Loop.status_file, Solver.Loop.leaks, Solver.Loop.many, Solver.Loop.many_times |
| C85 | Q P | Solver.Loop.converged_iff, Solver.Loop.finalize_order |
| C86 | C Q P | IO.Contents.checkpoint_defined, IO.Contents.keys_nodup, IO.Contents.checkpoint_look, IO.Contents.restart_reads, IO.Contents.restart_options, IO.Contents.grid_reads, IO.Contents.grid_no_steps, IO.Contents.pos_reads, IO.Contents.pos_other, IO.Contents.points_read, IO.Contents.point_restart, IO.Contents.sentSize_owner, IO.Contents.second_throws, IO.Contents.sizes_lost, IO.Contents.other_boundary, IO.Contents.grid_attributes |
| C86 | P | IO.Contents.guard_spec |
| C87 | C Q P | Solver.Messages.diamond, Solver.Messages.one_for_all, Solver.Messages.same_end, Solver.Messages.carry_all, Solver.Messages.carry_world, Solver.Messages.series_if_int, Solver.Messages.series_fails, Solver.Messages.series_never, Solver.Messages.surface_all, Solver.Messages.surface_sync |
| C87 | P | Solver.Messages.surface_free |
| C87 | Q P | Solver.Messages.carried_mem, Solver.Messages.series_one |
| C88 | C Q P | Options.Readers.setters_iff, Options.Readers.json_values, Options.Readers.json_done, Options.Readers.json_congr, Options.Readers.json_unknown, Options.Readers.json_repeated, Options.Readers.json_case, Options.Readers.json_order, Options.Readers.conf_refuses, Options.Readers.conf_values, Options.Readers.conf_default, Options.Readers.conf_done, Options.Readers.conf_order, Options.Readers.agree, Options.Readers.same_names, Options.Readers.names_nodup, Options.Readers.json_path_lost, Options.Readers.path_blank, Options.Readers.json_text_list, Options.Readers.json_list_fails, Options.Readers.isJson_of, Options.Readers.isJson_ends, Options.Readers.readPath_iff, Options.Readers.fallback_iff |
| C89 | C Q P | Solver.Exchange.pairs_sorted, Solver.Exchange.owned_iff, Solver.Exchange.put_get, Solver.Exchange.put_exact_iff, Solver.Exchange.put_zero, Solver.Exchange.put_empty, Solver.Exchange.put_stale, Solver.Exchange.put_twice, Solver.Exchange.putAll_getAll, Solver.Exchange.put_defined, Solver.Exchange.visited_nil, Solver.Exchange.temps_back, Solver.Exchange.temps_kept, Solver.Exchange.refresh_close, Solver.Exchange.restore_save, Solver.Exchange.fluence_back_iff, Solver.Exchange.owned_once |
| C89 | Q P | Solver.Exchange.pairs_mem, Solver.Exchange.write_pairs, Solver.Exchange.write_defined, Solver.Exchange.get_at, Solver.Exchange.temps_zero, Solver.Exchange.visited_signed, Solver.Exchange.dense_get |
| C90 | C Q P | Network.Pattern.build_exists, Network.Pattern.matrix_exact, Network.Pattern.evaluations_clean, Network.Pattern.matrix_jacobian, Network.Pattern.outside_pattern, Network.Pattern.fe_jacobian, Network.Pattern.ne_jacobian, Network.Pattern.ne_own_jacobian, Network.Pattern.psi_jacobian, Network.Pattern.psi_all_jacobian_partial, Network.Pattern.desorption_missing, Network.Pattern.zr_jacobian, Network.Pattern.alloy_jacobian, Network.Pattern.constant_matrix_exact, Network.Pattern.constant_matrix_jacobian, Network.Pattern.constant_evaluations_clean, Network.Pattern.constant_outside_pattern, Network.Pattern.zr_constant_jacobian, Network.Pattern.alloy_constant_jacobian |
| C91 | C Q P | IO.NetFile.write_eq, IO.NetFile.read_written, IO.NetFile.bounds_region, IO.NetFile.write_determines, IO.NetFile.size_negative, IO.NetFile.first_net, IO.NetFile.start_thrown, IO.NetFile.own_network, IO.NetFile.restart_network, IO.NetFile.chain_network, IO.NetFile.chain_own, IO.NetFile.stale_network, IO.NetFile.never_network |
| C91 | Q P | IO.NetFile.run_others, IO.NetFile.untouched, IO.NetFile.missing_restart, IO.NetFile.step_conc, IO.NetFile.checkForRestart_iff |
| C92 | C Q P | Solver.Depths.tempIndex_spec, Solver.Depths.tempIndex_lt, Solver.Depths.defined_iff, Solver.Depths.disabled, Solver.Depths.zero_dimension, Solver.Depths.noSolve_outside, Solver.Depths.depth_mono, Solver.Depths.defined_last, Solver.Depths.vacuum_outside, Solver.Depths.first_rank, Solver.Depths.shifted, Solver.Depths.shifted_lt, Solver.Depths.line_offset, Solver.Depths.agree, Solver.Depths.ranks_differ |
| C92 | Q P | Solver.Depths.length_depths, Solver.Depths.depths_get, Solver.Depths.in_grid, Solver.Depths.later_rank |
| C93 | C Q P | Network.Mirror.start_inv, Network.Mirror.sync_inv, Network.Mirror.getMirror_inv, Network.Mirror.read_inv, Network.Mirror.gridSize_inv, Network.Mirror.step_inv, Network.Mirror.coherent, Network.Mirror.coherent_flags |
| C93 | P | Network.Mirror.temperatures_inv, Network.Mirror.no_alias |
| C93 | Q P | Network.Mirror.setScalar_inv, Network.Mirror.deviceOnly_inv, Network.Mirror.sync_frame, Network.Mirror.sync_mirror, Network.Mirror.extra_same |
| C93 | none | Network.Mirror.flag_stale, Network.Mirror.extra_stale, Network.Mirror.zr_stale |
| C94 | C Q P | Solver.TextFiles.he_row, Solver.TextFiles.he_labels, Solver.TextFiles.he_program, Solver.TextFiles.he_width, Solver.TextFiles.name_inj, Solver.TextFiles.xe_row, Solver.TextFiles.ne_row, Solver.TextFiles.ne_width, Solver.TextFiles.ne_undefined, Solver.TextFiles.label_inj, Solver.TextFiles.data_label, Solver.TextFiles.temp_row, Solver.TextFiles.temp_moved, Solver.TextFiles.bubble_rows, Solver.TextFiles.bubble_bounds, Solver.TextFiles.toId_none, Solver.TextFiles.toId_some |
| C94 | P | Solver.TextFiles.label_interstitial, Solver.TextFiles.data_header, Solver.TextFiles.rows_lost, Solver.TextFiles.restart_erases |
| C94 | Q P | Solver.TextFiles.restart_short, Solver.TextFiles.instant_custom, Solver.TextFiles.instant_base, Solver.TextFiles.instant_pulsed, Solver.TextFiles.data_width, Solver.TextFiles.temp_shift, Solver.TextFiles.rows_kept, Solver.TextFiles.output_rows, Solver.TextFiles.bubble_missed |
| C95 | C Q P | Network.ProdRxn.entries_rates, Network.DissRxn.entries_rates, Network.DissRxn.covered_or_unset, Network.RateEnt.array_rates, Network.RateEnt.const_reads, Network.RateEnt.array_flux_partial, Network.RateEnt.first_wrong, Network.ProdRxn.set_marked, Network.DissRxn.set_marked |
| C95 | Q P | Network.RateEnt.tables_eq, Network.RateEnt.sub_closed |
| C96 | C Q P | Solver.Initial.first_start, Solver.Initial.first_temps, Solver.Initial.given_iff, Solver.Initial.skipped_iff, Solver.Initial.given_evolves, Solver.Initial.restart_eq, Solver.Initial.restart_written, Solver.Initial.size_calls, Solver.Initial.first_frozen, Solver.Initial.first_evolves, Solver.Initial.again_outside, Solver.Initial.position_center, Solver.Initial.position_range, Solver.Initial.firstTemp_eq |
| C96 | Q P | Solver.Initial.restart_empty, Solver.Initial.depths_inside, Solver.Initial.depth_entry |
| C97 | C Q P | Solver.Burst.points_iff, Solver.Burst.points_nodup, Solver.Burst.listed_own, Solver.Burst.numbers_own, Solver.Burst.listed_all, Solver.Burst.numbers_all, Solver.Burst.listed_nodup, Solver.Burst.large_listed, Solver.Burst.quiet_point, Solver.Burst.one_list, Solver.Burst.all_lists, Solver.Burst.agree, Solver.Burst.happens_iff, Solver.Burst.happens_three, Solver.Burst.test_bursts, Solver.Burst.vacancies_area, Solver.Burst.more_helium, Solver.Burst.distance_pos, Solver.Burst.fine, Solver.Burst.empty_quiet, Solver.Burst.first_always, Solver.Burst.acts_spec, Solver.Burst.post_own, Solver.Burst.post_two_partial, Solver.Burst.post_two_undefined, Solver.Burst.account_one, Solver.Burst.hxLeft_width_iff, Solver.Burst.hxLeft_less, Solver.Burst.three_disagree, Solver.Burst.three_shift, Solver.Burst.owns_three, Solver.Burst.owns_two |
| C97 | Q P | Solver.Burst.event_again, Solver.Burst.event_new, Solver.Burst.account_none |
| C98 | C Q P | Network.Reduced.chosen_iff, Network.Reduced.chosen_append, Network.Reduced.coo_diagonal, Network.Reduced.matrix_reduced, Network.Reduced.defined_iff, Network.Reduced.unset_undefined, Network.Reduced.matrix_diagonal, Network.Reduced.tidy_iff, Network.Reduced.fe_diagonal, Network.Reduced.fe_singles, Network.Reduced.ne_diagonal, Network.Reduced.ne_singles, Network.Reduced.ne_own_diagonal, Network.Reduced.psi_diagonal, Network.Reduced.psi_singles, Network.Reduced.psi_all_diagonal_partial, Network.Reduced.zr_diagonal, Network.Reduced.zr_singles, Network.Reduced.alloy_diagonal, Network.Reduced.alloy_singles, Network.Reduced.diagonal_lost, Network.Reduced.order_undefined, Network.Reduced.value_ignored, Network.DissRxn.reduced_deficit |
| C99 | C Q P | Solver.Matrix.matrix_sum_partial, Solver.Matrix.matrix_jacobian_partial, Solver.Matrix.Line.line_jacobian_partial, Solver.Matrix.Line.line_fe, Solver.Matrix.Space.linear_jacobian, Solver.Matrix.Space.plane_jacobian_partial, Solver.Matrix.Space.box_jacobian_partial, Solver.Matrix.Line.line_surface_wrong, Solver.Matrix.Line.line_reflecting_wrong, Solver.Matrix.Space.plane_heat_partial, Solver.Matrix.Space.box_heat_partial, Solver.Matrix.Space.lack2, Solver.Matrix.Space.lack3, Solver.Matrix.Space.lack2_300, Solver.Matrix.Space.lack3_300, Solver.Matrix.Space.heatTimes_eq, Solver.Matrix.Line.pos_middle, Solver.Matrix.Line.no_heat, Solver.Matrix.Space.bound_defined, Solver.Matrix.Space.across_defined, Solver.Matrix.Space.wall_defined, Solver.Matrix.Space.box_walls_partial, Solver.Matrix.Space.wall_eq, Solver.Matrix.Space.walls_sum, Solver.Matrix.Space.across_boundary_partial, Solver.Matrix.Space.linear_rest, Solver.Matrix.Space.across_eq, Solver.Matrix.Space.rest_sum, Solver.Matrix.Space.plane_boundary_partial, Solver.Matrix.Space.box_boundary_partial, Solver.Matrix.Space.linear_lack, Solver.Matrix.Space.announced_meant, Solver.Matrix.Space.rate_eq |
