{"id": "C01", "title": "Median split of a tree cell keeps every particle and separates the halves", "statement": "Splitting the particle id list of a tree cell about its median terminates, only permutes ids inside the cell's range, leaves all ids outside the range untouched, and afterwards every particle before the split position has a coordinate <= that of every particle at or after it (strictly smaller than, or equal to, the returned division coordinate respectively).", "quantifier": "every id list, every sub-range, every split position inside the range, every coordinate assignment including arbitrary ties", "why_tests_cant": "Quick-select behaviour depends on the relative order and on ties of all coordinates; the number of configurations is unbounded and the worst cases (all equal, presorted) hit different branches.", "anchors": ["src/Tree/KDTree.cpp:QuickSelect", "src/Mpi/MpiTree.cpp:QuickSelect"]}
{"id": "C02", "title": "Tree sizing gives every leaf at most Nleafmax particles and no empty internal cell", "statement": "For any particle number N>0 and leaf capacity the chosen depth is the smallest that fits, every leaf receives at most Nleafmax particles, every internal cell owns at least one particle, and particle counts of the two children add up to the parent count.", "quantifier": "every N >= 1 and every Nleafmax >= 1, every level of the tree", "why_tests_cant": "Counts come from repeated integer halving; only an induction over levels covers all N.", "anchors": ["src/Tree/KDTree.cpp:ComputeTreeSize", "src/Tree/KDTree.cpp:DivideTreeCell"]}
{"id": "C03", "title": "Tree build assigns every particle to exactly one leaf", "statement": "After a full tree build the concatenation of the leaf particle lists is a permutation of the input particles: nothing is lost, nothing is duplicated.", "quantifier": "every particle set, every depth, every choice of split dimension at each cell", "why_tests_cant": "Requires induction over the recursive splits; a missing particle in one rare tie pattern would silently drop forces.", "anchors": ["src/Tree/KDTree.cpp:BuildTree", "src/Tree/KDTree.cpp:DivideTreeCell"]}
{"id": "C04", "title": "Skip-pointer tree walk visits exactly the cells of the recursive traversal", "statement": "Walking a tree through its open/next links from the root terminates, visits each leaf reachable through opened cells exactly once in depth-first order, and visits no other cell, for any opening decision.", "quantifier": "every well-linked tree (binary KD layout, oct-tree layout, pruned layout) and every opening predicate", "why_tests_cant": "All tree shapes and all opening patterns must be covered; a wrong link skips or repeats subtrees only for particular patterns.", "anchors": ["src/Tree/KDTree.cpp:CreateTreeStructure", "src/Tree/Tree.cpp:ComputeNeighbourList", "src/Tree/OctTree.cpp:BuildTree"]}
{"id": "C05", "title": "KD-tree link table is a valid pre-order layout", "statement": "The link table computed for depth L contains exactly 2^(L+1)-1 cells, every cell's level is its depth in a complete binary tree, and open/next links encode that tree in pre-order with the last link leaving the table.", "quantifier": "every depth L", "why_tests_cant": "Link arithmetic with powers of two must be right for every depth; tests only build a few depths.", "anchors": ["src/Tree/KDTree.cpp:CreateTreeStructure", "src/Mpi/MpiTree.cpp:CreateTreeStructure"]}
{"id": "C06", "title": "Stocked cells bound and sum up their particles", "statement": "After stocking, each cell's bounding box contains all its live particles, its smoothing box contains every particle's kernel support, hmax is at least every h, N and m are the exact count and mass of live particles, the cell centre of mass is their centre of mass, and the quadrupole equals the particle sum about it.", "quantifier": "every tree and every particle data", "why_tests_cant": "Values at internal cells are built from children, so correctness is an induction on tree height over real data.", "anchors": ["src/Tree/KDTree.cpp:StockCellProperties", "src/Tree/OctTree.cpp:StockTree"]}
{"id": "C07", "title": "Gather neighbour search is complete and duplicate free", "statement": "A gather search around a point with radius R returns -1 only when the caller's buffer could be too small; otherwise it contains every live particle closer than R, exactly once, and contains only particles closer than R.", "quantifier": "every tree, every search point, every radius, every buffer size", "why_tests_cant": "A missed neighbour only shows for particular geometry of boxes versus sphere; needs an argument over all geometries.", "anchors": ["src/Tree/Tree.cpp:ComputeGatherNeighbourList"]}
{"id": "C08", "title": "Scatter-gather neighbour search returns every interacting pair", "statement": "The neighbour search for an active cell returns every live particle j for which some active particle i of the cell satisfies |ri-rj| < kernrange*max(hi,hj), including through the nearest periodic image.", "quantifier": "every tree, every cell, every particle data, periodic or open box", "why_tests_cant": "Interaction completeness is a universally quantified geometric statement.", "anchors": ["src/Tree/Tree.cpp:ComputeNeighbourList", "src/Headers/GhostNeighbours.hpp:PeriodicBoxOverlap"]}
{"id": "C09", "title": "Gravity walk counts every particle's mass exactly once", "statement": "For an active cell the neighbour list, direct-sum list and distant-cell list produced by the gravity walk partition the live particles of the tree: each particle contributes its mass through exactly one of them.", "quantifier": "every tree, every opening criterion outcome, every cell", "why_tests_cant": "Double counting or omission depends on the opening pattern over the whole tree.", "anchors": ["src/Tree/Tree.cpp:ComputeGravityInteractionAndGhostList", "src/Tree/Tree.cpp:ComputeStarGravityInteractionList"]}
{"id": "C10", "title": "Pair-once rule evaluates each particle pair exactly once", "statement": "When both members of a pair are visited, exactly one of the two visits accepts the other as partner, so conservative pair fluxes are applied once per pair; a mirror image is always accepted.", "quantifier": "every pair of particles with distinct ids and any timestep levels", "why_tests_cant": "Order and level combinations are unbounded; a double or missing flux destroys conservation only for particular combinations.", "anchors": ["src/Headers/NeighbourManager.h:_first_appearance", "src/Headers/NeighbourManager.h:TrimNeighbourLists"]}
{"id": "C11", "title": "Neighbour trimming partitions the candidate list", "statement": "Trimming a candidate list for one particle splits it into hydro neighbours, smoothed-gravity neighbours, direct-sum neighbours and non-interacting ones; every candidate ends up in exactly one class and hydro neighbours are exactly those inside either kernel with an allowed type.", "quantifier": "every candidate list, every masks and smoothing lengths", "why_tests_cant": "Branch combination coverage over arbitrary lists.", "anchors": ["src/Headers/NeighbourManager.h:TrimNeighbourLists"]}
{"id": "C12", "title": "Nearest periodic vector is the minimum image", "statement": "For separations of two points inside the box the periodic correction returns a separation that differs by whole box lengths in periodic dimensions only and has the smallest length among all images.", "quantifier": "every box, every boundary combination, every pair of points in the box", "why_tests_cant": "Minimality is over infinitely many images and all reals.", "anchors": ["src/Headers/DomainBox.h:NearestPeriodicVector", "src/Headers/GhostNeighbours.hpp:NearestPeriodicVector"]}
{"id": "C13", "title": "Boundary handling keeps particles in the box without changing the dynamics", "statement": "After boundary handling a particle that left the box by less than one box length is inside it; a periodic wrap changes position and start-of-step position by the same box length and no velocity; a mirror reflects position, velocity and acceleration consistently so speed is unchanged.", "quantifier": "every particle, every boundary type combination", "why_tests_cant": "Real valued inputs; corner crossings combine dimensions.", "anchors": ["src/Common/Integration.cpp:CheckBoundaries", "src/Nbody/Nbody.cpp:CheckBoundaries"]}
{"id": "C14", "title": "Ghost images are geometrically faithful", "statement": "A periodic or mirror ghost keeps mass and all thermal data of its parent; its position is the parent's image under the recorded boundary operations; refreshing ghosts from parents reproduces the created ghost; and reflecting twice about the same plane is the identity.", "quantifier": "every particle, every chain of boundary operations", "why_tests_cant": "Chains of ghosts of ghosts and arbitrary positions.", "anchors": ["src/Hydrodynamics/Ghosts.cpp:CopyHydroDataToGhosts", "src/Hydrodynamics/Hydrodynamics.cpp:CreateBoundaryGhostParticle", "src/Headers/Particle.h:reflect"]}
{"id": "C15", "title": "Ghost generation covers the whole ghost zone", "statement": "For every combination of boundary sides, whenever a particle (moving linearly for the ghost lifetime) can come close enough to those sides, the image across that combination of sides is present exactly once among the generated ghosts.", "quantifier": "every particle set and every subset of dimensions", "why_tests_cant": "Corner and edge images are generated by successive passes; completeness is an induction over passes.", "anchors": ["src/Hydrodynamics/Ghosts.cpp", "src/Hydrodynamics/Hydrodynamics.cpp:CheckBoundaryGhostParticle", "src/Tree/Tree.cpp:GenerateBoundaryGhostParticles"]}
{"id": "C16", "title": "On-the-fly mirror ghosts: number and validity", "statement": "Constructing all ghosts of one particle yields exactly the product over dimensions of (1 + number of reflecting sides) entries, first the particle itself, and all entries are distinct reflections of it.", "quantifier": "every boundary combination in 1, 2 or 3 dimensions", "why_tests_cant": "The list is extended while being iterated; correctness is an induction over dimensions.", "anchors": ["src/Headers/GhostNeighbours.hpp:ConstructAllGhosts", "src/Headers/GhostNeighbours.hpp:MaxNumGhosts"]}
{"id": "C17", "title": "Block timesteps always nest and synchronise", "statement": "In every reachable state of the block-timestep scheduler: each particle's step is 2^(level_step-level), a particle starts steps only at multiples of its step, its last step lies at or before the current integer time, no level exceeds the maximum and all particles finish together at the resynchronisation time.", "quantifier": "every sequence of requested timesteps over every number of steps", "why_tests_cant": "The invariant must survive adding and removing levels at arbitrary times; histories are unbounded.", "anchors": ["src/Common/Simulation.cpp:ComputeBlockTimesteps"]}
{"id": "C18", "title": "Assigned block timestep never exceeds the requested one", "statement": "At a resynchronisation each particle's assigned timestep is at most the timestep it requested and, unless limited by the level range, more than half of it.", "quantifier": "every set of positive requested timesteps, every number of levels", "why_tests_cant": "Depends on real logarithms of arbitrary ratios.", "anchors": ["src/Headers/InlineFuncs.h:ComputeTimestepLevel", "src/Common/Simulation.cpp:ComputeBlockTimesteps"]}
{"id": "C19", "title": "Neighbour timestep limiter only shortens steps at legal times", "statement": "The timestep limiter never lengthens a step, never moves a step end into the past, and only ends steps at integer times aligned with the new, shorter step.", "quantifier": "every particle state and neighbour level", "why_tests_cant": "Combinations of integer times and levels are unbounded.", "anchors": ["src/Hydrodynamics/SphLeapfrogKDK.cpp:CheckTimesteps", "src/Hydrodynamics/SphLeapfrogDKD.cpp:CheckTimesteps", "src/MeshlessFV/MfvIntegration.cpp:CheckTimesteps"]}
{"id": "C20", "title": "Sink accretion conserves mass, centre of mass, momentum and angular momentum", "statement": "When a sink accretes from its neighbour list, total mass, total mass-weighted position, total linear momentum and total (orbital plus spin) angular momentum of star plus gas are unchanged, whatever subset is wholly or partially accreted.", "quantifier": "every neighbour list, every accretion amount, both accretion modes", "why_tests_cant": "Two separate loops must take identical decisions for arbitrary data; conservation is an identity over all reals.", "anchors": ["src/Nbody/Sinks.cpp:AccreteMassToSinks"]}
{"id": "C21", "title": "Sink creation conserves mass and momentum", "statement": "Turning a gas particle into a sink moves exactly its mass, position, velocity to the new star, marks the particle dead with zero mass, and raises an error instead of writing beyond capacity.", "quantifier": "every particle and every number of existing sinks", "why_tests_cant": "Capacity boundary plus arbitrary data.", "anchors": ["src/Nbody/Sinks.cpp:CreateNewSinkParticle", "src/Nbody/Sinks.cpp:SearchForNewSinkParticles"]}
{"id": "C22", "title": "Removing dead particles keeps exactly the live ones", "statement": "Compacting the particle array keeps every live particle exactly once in the first Nhydro slots, leaves no dead particle there, and reduces the count by exactly the number of dead particles.", "quantifier": "every array with every pattern of dead flags", "why_tests_cant": "2^N patterns for every N; in-place moves with early exits.", "anchors": ["src/Headers/Hydrodynamics.h:DoDeleteDeadParticles"]}
{"id": "C23", "title": "Leapfrog steps are time reversible and exact for constant acceleration", "statement": "A kick-drift-kick or drift-kick-drift step followed by a velocity flip and the same step returns to the initial state for any position-dependent acceleration; both reproduce uniformly accelerated motion exactly.", "quantifier": "every force law, every state, every timestep", "why_tests_cant": "Universal over force functions.", "anchors": ["src/Hydrodynamics/SphLeapfrogKDK.cpp:AdvanceParticles", "src/Hydrodynamics/SphLeapfrogDKD.cpp:AdvanceParticles", "src/Nbody/NbodyLeapfrogKDK.cpp"]}
{"id": "C24", "title": "SPH pair forces conserve momentum, angular momentum and energy", "statement": "Summed over all particles with symmetric neighbour lists the SPH accelerations exert no net force and no net torque, and the kinetic plus thermal energy rate of change is zero for the pressure terms and the viscosity terms.", "quantifier": "every particle configuration, every number of particles", "why_tests_cant": "Identity over all reals and any N.", "anchors": ["src/GradhSph/GradhSph.cpp:ComputeSphHydroForces"]}
{"id": "C25", "title": "Artificial viscosity only heats", "statement": "The artificial viscosity contribution to the heating rate is never negative, and it repels only approaching pairs.", "quantifier": "every pair of particles with positive masses, densities, sound speeds", "why_tests_cant": "Sign statement over all reals.", "anchors": ["src/GradhSph/GradhSph.cpp:ComputeSphHydroForces"]}
{"id": "C26", "title": "Finite-volume fluxes conserve all conserved variables", "statement": "One flux loop over any list of pairs leaves the sum over all particles of every conserved variable increment unchanged, independent of order and of the Riemann solver used.", "quantifier": "every pair list, every flux function, every order of evaluation", "why_tests_cant": "Schedules and lists are unbounded.", "anchors": ["src/MeshlessFV/MfvMuscl.cpp:ComputeGodunovFlux"]}
{"id": "C27", "title": "Slope limiters create no new extrema", "statement": "The limited reconstruction at any neighbour face stays between the minimum and maximum of the neighbouring cell values, and the limiting factor lies in [0,1].", "quantifier": "every neighbour list, every gradient", "why_tests_cant": "Real valued data with arbitrarily many neighbours.", "anchors": ["src/Headers/SlopeLimiter.h"]}
{"id": "C28", "title": "HLLC flux is consistent, upwind and satisfies the jump conditions", "statement": "For identical left and right states the HLLC flux is the physical flux; when all waves move one way the upwind flux is returned; the two star-state fluxes agree at the contact; and in zero-mass-flux mode no mass crosses the face.", "quantifier": "every pair of states with positive density, any face velocity and normal", "why_tests_cant": "Algebraic identities over all real states.", "anchors": ["src/Headers/RiemannSolver.h:HllcRiemannSolver::solve"]}
{"id": "C29", "title": "Exact Riemann solver frame rotation is invertible and mass-flux free mode is exact", "statement": "Rotating velocities into the face frame and back is the identity for every unit normal, the normal itself is mapped on the first axis, and in zero-mass-flux mode the returned mass flux is exactly zero.", "quantifier": "every unit vector in 1, 2 and 3 dimensions and all states", "why_tests_cant": "Continuum of directions including the degenerate ones.", "anchors": ["src/Hydrodynamics/RiemannSolver.cpp:ComputeRotationMatrices", "src/Hydrodynamics/RiemannSolver.cpp:ComputeFluxes"]}
{"id": "C30", "title": "M4 kernel is a valid smoothing kernel", "statement": "The cubic spline kernel is non-negative, vanishes outside its range, is continuous and non-increasing, its derivative function is the true derivative, and it integrates to one in 1, 2 and 3 dimensions.", "quantifier": "every real separation s >= 0", "why_tests_cant": "Statement about all reals and integrals.", "anchors": ["src/Headers/SmoothingKernel.h:M4Kernel", "src/Hydrodynamics/M4Kernel.cpp"]}
{"id": "C31", "title": "M4 kernel gravity, potential and grad-h terms are mutually consistent", "statement": "The softened force equals the kernel mass enclosed divided by s^2 and becomes Newtonian outside the range; the potential's derivative is minus the force; omega and zeta equal their definitions in terms of kernel and potential.", "quantifier": "every real separation s > 0", "why_tests_cant": "Piecewise polynomials with many coefficients must agree at every real point.", "anchors": ["src/Headers/SmoothingKernel.h:M4Kernel"]}
{"id": "C32", "title": "Quintic and Gaussian kernels are valid and consistent", "statement": "The same validity and consistency statements for the quintic and Gaussian kernels.", "quantifier": "every real separation s > 0", "why_tests_cant": "Piecewise polynomials with many coefficients must agree at every real point.", "anchors": ["src/Headers/SmoothingKernel.h:QuinticKernel", "src/Headers/SmoothingKernel.h:GaussianKernel"]}
{"id": "C33", "title": "Tabulated kernel look-ups never leave the table", "statement": "For every separation the table index used is inside the table, the value is zero outside the range, and the tabulated value is the exact kernel value at a point within one table spacing.", "quantifier": "every s >= 0 and every table resolution", "why_tests_cant": "Continuum of arguments, boundary rounding cases.", "anchors": ["src/Headers/SmoothingKernel.h:TabulatedKernel"]}
{"id": "C34", "title": "Particle flags behave as a set", "statement": "Setting and clearing flags never disturbs other flags; a checked flag is present exactly if it was set after its last clearing; boundary flag groups are disjoint and unions cover exactly their members.", "quantifier": "every flag history", "why_tests_cant": "Unbounded op sequences over 2^19 states.", "anchors": ["src/Headers/Flags.h"]}
{"id": "C35", "title": "Sorting helpers sort", "statement": "Insertion sort (plain and tandem) and heapsort return a sorted permutation of their input and keep keys and payloads paired.", "quantifier": "every input of every length", "why_tests_cant": "Infinitely many inputs; heap index arithmetic.", "anchors": ["src/Headers/InlineFuncs.h:InsertionSort", "src/Headers/InlineFuncs.h:InsertionSortIds", "src/Headers/InlineFuncs.h:Heapsort"]}
{"id": "C36", "title": "Box predicates agree with geometry", "statement": "Two boxes are reported overlapping exactly when they share a point; a particle is reported inside exactly when its coordinates are in the half-open box; the fractional overlap is the shared volume fraction of the first box.", "quantifier": "every pair of boxes in any dimension", "why_tests_cant": "Real valued edges including touching and equal edges.", "anchors": ["src/Headers/InlineFuncs.h:BoxOverlap", "src/Headers/InlineFuncs.h:FractionalBoxOverlap", "src/Headers/InlineFuncs.h:ParticleInBox", "src/Headers/DomainBox.h:BoxesOverlap"]}
{"id": "C37", "title": "Random number generator never degenerates and stays in the unit interval", "statement": "The generator's state update is a bijection that never reaches the zero state from a non-zero seed; the returned integers are distinct for distinct states; the real variate is in [0,1].", "quantifier": "every 64-bit seed and every number of draws", "why_tests_cant": "2^64 states.", "anchors": ["src/Headers/RandomNumber.h:XorshiftRand"]}
{"id": "C38", "title": "Duplicate particle ids are detected", "statement": "The unique-id check reports success exactly if all ids are different.", "quantifier": "every id list", "why_tests_cant": "All patterns of duplicates in lists of any length.", "anchors": ["src/Headers/InlineFuncs.h:VerifyUniqueIds"]}
{"id": "C39", "title": "Parameter files: only assignments change parameters and values round-trip", "statement": "A comment or a line without an assignment changes no parameter; a line 'description : key = value' sets exactly that key; unknown keys change nothing; recorded parameters re-read to the same values.", "quantifier": "every input line and every parameter table", "why_tests_cant": "All strings.", "anchors": ["src/Common/Parameters.cpp:ParseLine", "src/Common/Parameters.cpp:SetParameter", "src/Common/Parameters.cpp:RecordParametersToFile"]}
{"id": "C40", "title": "MPI communication calendar pairs all processes without conflict", "statement": "For every even number of processes, in every turn each process has exactly one partner, partners agree on each other, and over all turns each pair meets exactly once.", "quantifier": "every even process count and every turn", "why_tests_cant": "Number of processes unbounded.", "anchors": ["src/Mpi/MpiControl.cpp:CreateLeagueCalendar"]}
{"id": "C41", "title": "MPI pairwise exchange cannot deadlock and loses no particle", "statement": "Executing the pairwise send/receive turns with blocking sends terminates for every interleaving and afterwards every particle is held by exactly one process.", "quantifier": "every process count, every schedule, every transfer pattern", "why_tests_cant": "All interleavings of blocking communication.", "anchors": ["src/Mpi/MpiKDTreeDecomposition.cpp:LoadBalancing"]}
{"id": "C42", "title": "MPI domains partition space", "statement": "After any update of division positions the leaf domains of the decomposition tree are pairwise disjoint and cover the root box, so every particle belongs to exactly one process.", "quantifier": "every tree depth and every division position", "why_tests_cant": "Continuum of positions and unbounded depth.", "anchors": ["src/Mpi/MpiTree.cpp:UpdateBoundingBoxes", "src/Mpi/MpiTree.cpp:DivideTreeCell", "src/Headers/InlineFuncs.h:ParticleInBox"]}
{"id": "C43", "title": "Message packing round-trips", "statement": "Data packed into a byte message for another process and unpacked there in the same order yields the same values and consumes exactly the packed bytes, for any number of records; displacement tables index disjoint consecutive blocks.", "quantifier": "every list of records, every counts vector", "why_tests_cant": "Arbitrary numbers and sizes of records.", "anchors": ["src/Headers/InlineFuncs.h:append_bytes", "src/Headers/InlineFuncs.h:unpack_bytes", "src/Headers/InlineFuncs.h:compute_displs", "src/Tree/Tree.cpp:PackParticlesAndCellsForMPITransfer"]}
{"id": "C44", "title": "Pruned trees are faithful summaries", "statement": "A pruned copy of the tree is again well linked, contains the root, and its leaves account for every particle of the full tree exactly once; a too small buffer is reported.", "quantifier": "every tree and every pruning rule", "why_tests_cant": "All tree shapes and prune patterns.", "anchors": ["src/Tree/Tree.cpp:CreatePrunedTreeForMpiNode"]}
{"id": "C45", "title": "Direct N-body forces obey Newton's third law and the jerk is the force derivative", "statement": "Direct-summation accelerations exert no net force and no net torque; the jerk is the time derivative of the acceleration along the motion; total energy's time derivative vanishes.", "quantifier": "every number of bodies and every non-colliding configuration", "why_tests_cant": "Identity over all reals and any N.", "anchors": ["src/Nbody/Nbody.cpp:CalculateDirectGravForces", "src/Nbody/NbodyHermite4.cpp:CalculateDirectSmoothedGravForces"]}
{"id": "C46", "title": "Hermite corrector has its nominal order", "statement": "The 4th-order Hermite predictor-corrector is exact whenever the acceleration along the step is a cubic polynomial in time.", "quantifier": "every polynomial, every step size", "why_tests_cant": "Universal over trajectories.", "anchors": ["src/Nbody/NbodyHermite4.cpp:AdvanceParticles", "src/Nbody/NbodyHermite4.cpp:CorrectionTerms"]}
{"id": "C47", "title": "Snapshots are produced at every output time once", "statement": "Over any run each output time is used for at most one snapshot, snapshot numbers are consecutive, and output never gets ahead of simulation time.", "quantifier": "every sequence of time increments", "why_tests_cant": "Histories are unbounded.", "anchors": ["src/Common/Simulation.cpp:Output"]}
{"id": "C48", "title": "A crash never leaves a restart pointer to a missing snapshot", "statement": "Whatever the instant of a crash, the restart file names a snapshot file that has been completely written.", "quantifier": "every crash point in every run", "why_tests_cant": "Crash points are not exercised by tests.", "anchors": ["src/Common/Simulation.cpp:Output", "src/Common/Simulation.cpp:RestartSnapshot"]}
{"id": "C49", "title": "Unit conversions are inverse to each other", "statement": "Converting from code to physical units and back returns the value; conversion between two requested units composes.", "quantifier": "every value and every supported unit with non-zero scale", "why_tests_cant": "All unit combinations and all values.", "anchors": ["src/Headers/SimUnits.h:SimUnit", "src/Common/SimUnits.cpp"]}
{"id": "C50", "title": "Smoothing length iteration returns a consistent h", "statement": "If the smoothing length iteration reports success, the returned h is positive, not above the given maximum, not below the sink bound, and the bracketing interval always contains the candidate.", "quantifier": "every neighbour list and every starting h", "why_tests_cant": "Unbounded iteration histories over reals.", "anchors": ["src/GradhSph/GradhSph.cpp:ComputeH", "src/MeshlessFV/MfvCommon.cpp:ComputeH"]}
{"id": "C51", "title": "Matrix inversion used for gradients is exact", "statement": "For every invertible 1x1, 2x2 or 3x3 matrix the computed matrix is its inverse, so integral gradients reproduce linear fields exactly.", "quantifier": "every invertible matrix; every neighbour configuration with invertible moment matrix", "why_tests_cant": "Algebraic identity over all reals.", "anchors": ["src/Headers/InlineFuncs.h:InvertMatrix", "src/MeshlessFV/MfvCommon.cpp:ComputeGradients"]}
{"id": "C52", "title": "Recorded step length is the step taken", "statement": "In every reachable state of the block-timestep scheduler the step length recorded with a particle (part.dt), which multiplies the corrections at the end of the step, equals the length of the step the particle takes.", "quantifier": "every run, every particle, every change of levels", "why_tests_cant": "The mismatch only occurs when a particle moves to a level deeper than any level so far, when the limiter cuts a step or with two ticks per step; results then change only at the level of the correction terms.", "anchors": ["src/Common/Simulation.cpp:ComputeBlockTimesteps", "src/Hydrodynamics/SphLeapfrogKDK.cpp:EndTimestep", "src/Hydrodynamics/SphLeapfrogKDK.cpp:CheckTimesteps"]}
{"id": "C53", "title": "Time-dependent viscosity stays within its range", "statement": "The viscosity parameter alpha of a particle evolves with the rate of the chosen switch (Morris & Monaghan 1997 or Cullen & Dehnen 2010) and stays between alpha_visc_min and alpha_visc as long as the step resolves the rate.", "quantifier": "every neighbour list, every state in range, any number of steps", "why_tests_cant": "Leaving the range needs several successive steps of a particular sequence of rates; a short regression run does not show it.", "anchors": ["src/GradhSph/GradhSph.cpp:ComputeSphHydroForces", "src/GradhSph/GradhSph.cpp:ComputeSphHydroGravForces", "src/GradhSph/GradhSphTree.cpp:UpdateAllSphHydroForces", "src/GradhSph/GradhSphTree.cpp:UpdateAllSphForces", "src/Hydrodynamics/Sph.cpp:ZeroAccelerations", "src/Headers/Sph.h:ComputeCullenAndDehnenViscosity"]}
{"id": "C54", "title": "Force loops record the timestep levels of all neighbours", "statement": "After a force loop levelneib of every active particle is at least the level of each of its neighbours and levelneib of each neighbour is at least the level of the active particle, and no larger value is recorded; the result does not depend on how the cells are distributed over threads.", "quantifier": "every set of active particles, neighbour lists and distribution over threads", "why_tests_cant": "All thread schedules and all configurations of levels.", "anchors": ["src/GradhSph/GradhSphTree.cpp:UpdateAllSphHydroForces", "src/GradhSph/GradhSphTree.cpp:UpdateAllSphForces", "src/GradhSph/GradhSph.cpp:ComputeSphGravForces"]}
{"id": "C55", "title": "Star region of the exact Riemann solver", "statement": "When the vacuum test is false there is exactly one pressure at which the two waves balance; the Newton iteration never passes it after the first step, increases towards it and converges to it from any first guess, and the returned velocity converges to the velocity of the contact. When the test is true there is no such pressure.", "quantifier": "all pairs of states with positive density and pressure, all adiabatic indices above one, all first guesses", "why_tests_cant": "Convergence of an iteration over a four-parameter continuum including near-vacuum states; tests sample shock tubes.", "anchors": ["src/Hydrodynamics/RiemannSolver.cpp:ComputeStarRegion"]}
{"id": "C56", "title": "The sampled exact solution solves the Euler equations", "statement": "The state returned for every speed s = x/t is that of a wave fan: shocks satisfy the Rankine-Hugoniot conditions and the entropy condition, rarefactions satisfy the Euler equations with constant entropy and Riemann invariant and join the neighbouring states continuously, pressure and velocity are constant across the contact.", "quantifier": "all pairs of states, all sampling speeds", "why_tests_cant": "Needs derivatives and limits over a continuum of speeds, and all combinations of shocks and rarefactions.", "anchors": ["src/Hydrodynamics/RiemannSolver.cpp:SampleExactSolution"]}
{"id": "C57", "title": "Dust drag is stable for every stopping time and conserves momentum, angular momentum and energy", "statement": "In the test-particle limit the kick gives the dust the exact relative velocity of the linear drag law with constant relative acceleration (to 6e-14 in the series branch), so it neither overshoots nor reverses; the interpolated gas values are means of the neighbours. With back-reaction the pair forces leave total momentum and angular momentum unchanged, and the heat put into the gas is exactly the kinetic energy taken by the drag. The neighbours used are the ones found, and the position of a particle is the one that belongs to its momentum.", "quantifier": "all particle configurations, drag laws, kernels, steps and stopping times", "why_tests_cant": "Conservation is a statement about all configurations and a reordered double loop; accuracy and stability hold over a continuum of stiffness; the stale-index and dead-particle paths depend on unrelated particles.", "anchors": ["src/Common/Dust.cpp:DoInterpolate", "src/Common/Dust.cpp:ComputeDragForces", "src/Common/Dust.cpp:update_particle", "src/Common/Dust.cpp:FindNeibAndDoInterp", "src/Headers/DragLaws.h"]}
{"id": "C58", "title": "Gravity of distant cells approximates the gravity of their particles with a known error", "statement": "The monopole and quadrupole sums add an acceleration that is the gradient of the potential they add. For cells whose particles lie within chi times the distance of the centre of mass, potential and acceleration differ from the direct sums by second order in chi (monopole) and third order (quadrupole). The fast versions are the first-order Taylor polynomials of these fields about the centre of the cell. For a star the opening angle theta < 1/3 bounds chi by 2 theta/(1-theta) for every cell in its interaction list.", "quantifier": "all positions, masses, cell lists, stocked trees, opening angles; 1, 2 and 3 dimensions", "why_tests_cant": "An error bound is a statement over all source distributions and viewing points; a sign or factor in one of the tensor entries only shows for sources off the axes; tests compare one configuration with a tolerance.", "anchors": ["src/Headers/NeighbourSearch.h:ComputeCellMonopoleForces", "src/Headers/NeighbourSearch.h:ComputeCellQuadrupoleForces", "src/Headers/NeighbourSearch.h:FastMultipoleForces", "src/Tree/Tree.cpp:ComputeStarGravityInteractionList", "src/Tree/Tree.cpp:ComputeGravityInteractionAndGhostList", "src/Tree/KDTree.cpp:StockCellProperties"]}
{"id": "C59", "title": "Building the oct-tree puts every particle in exactly one leaf", "statement": "The oct-tree build ends. It leaves cells 0..Ncell-1 linked as a tree by copen and cnext with the root first and Ncellmax as the end; every particle is in the linked list of exactly one leaf; no leaf has more than Nleafmax particles; the cells of every level are stored between firstCell and lastCell; every particle lies in the cube of its leaf.", "quantifier": "all particle positions and numbers, all root boxes, leaf sizes, cell numbers and levels, any former contents of the memory; 1, 2 and 3 dimensions (any n)", "why_tests_cant": "Linked lists are spliced in place while cells of one level are divided one after the other, and the depth of the tree depends on the positions; a list that loses its tail or a wrong octant bit only shows for particular orders of particles, and whether the loop ends depends on every configuration.", "anchors": ["src/Tree/OctTree.cpp:BuildTree", "src/Tree/OctTree.cpp:AllocateTreeMemory", "src/Headers/DomainBox.h:Box"]}
{"id": "C60", "title": "Stocking the oct-tree summarises the live particles below every cell", "statement": "After StockTree every cell of the oct-tree holds the number, mass, centre of mass, boxes, hmax and multipoles of the live particles in the leaves below it; dead particles are taken out of the leaf lists; the searches on the tree therefore find exactly the particles they should.", "quantifier": "all trees a finished build leaves, all particle data, any former contents of the cells", "why_tests_cant": "Cells are stocked level by level from pointers left by the build, with the lists compacted in place; a child visited too late or a leaf without mass only shows in particular trees, and a cell with a wrong size silently hides neighbours.", "anchors": ["src/Tree/OctTree.cpp:StockTree", "src/Tree/Tree.cpp:ComputeGatherNeighbourList", "src/Tree/HydroTree.cpp:StockPrunedTree", "src/Common/Particle.cpp:Set"]}
{"id": "C61", "title": "Every equation of state describes one gas", "statement": "After ComputeThermalProperties the energy, pressure, entropy, temperature and sound speed of a particle belong to the same ideal gas; the energy can be recovered from the pressure; repeating the call changes nothing; barotropic and locally isothermal gas follow their temperature laws, the latter with the nearest star.", "quantifier": "all equations of state of Hydrodynamics.cpp except the two driven by radiation codes, all parameters and all particle states, over the reals", "why_tests_cant": "Each class implements five formulas separately; an exponent or a mean molecular weight that differs between two of them changes results smoothly, and with the parameters of the usual tests (mu_bar = 1) does not show at all.", "anchors": ["src/Thermal/AdiabaticEOS.cpp", "src/Thermal/IsothermalEOS.cpp", "src/Thermal/BarotropicEOS.cpp", "src/Thermal/Barotropic2EOS.cpp", "src/Thermal/PolytropicEOS.cpp", "src/Thermal/LocallyIsothermalEOS.cpp", "src/Thermal/DiscLocallyIsothermalEOS.cpp", "src/Thermal/IonisingRadiationEOS.cpp", "src/Thermal/EOS.cpp"]}
{"id": "C62", "title": "The diagnostics are the totals of the system", "statement": "CalculateDiagnostics reports the mass, momentum, angular momentum, centre of mass and energies of all live gas particles and stars, counting every gravitating pair once; SetComFrame moves the system to the rest frame of its centre of mass and changes nothing else; with MPI the root process reports the same values.", "quantifier": "all systems in one to three dimensions over an ordered field, all numbers of processes and distributions of the particles", "why_tests_cant": "The diagnostics are what tests and users judge conservation by; a sum that leaves out some particles or a term only shows as a drift, or as no drift where there is one.", "anchors": ["src/Common/SimAnalysis.hpp:CalculateDiagnostics", "src/Common/Simulation.cpp:SetComFrame", "src/Mpi/MpiControl.cpp:CollateDiagnosticsData"]}
{"id": "C63", "title": "External potentials give consistent force, jerk and energy", "statement": "AddExternalPotential adds an acceleration that is minus the gradient of the energy the diagnostics count for it, and a jerk that is its rate of change, so that a body falling freely in the field keeps its diagnosed energy; the parameters of the field are the ones documented for it.", "quantifier": "all positions, velocities and parameters, any number of dimensions, all differentiable paths, over the reals", "why_tests_cant": "A wrong factor between force and potential does not change any trajectory; it shows only in the energy of runs with the potential, where it looks like integration error.", "anchors": ["src/Headers/ExternalPotential.h", "src/Common/Simulation.cpp:ProcessParameters"]}
{"id": "C64", "title": "Periodic gravity: the Ewald table and its use", "statement": "The tabulated correction is the difference between the field of all periodic images and the nearest one: its acceleration is minus the gradient of its potential, it has the mirror symmetries that let one octant stand for all, the sums take the images and plane waves up to a given distance and wave number, and the waves fit into the box. CalculatePeriodicCorrection replaces the caller's image by the nearest, reads the table within its bounds, interpolates it linearly in all components, joins it with the formulas for large distances, and gives opposite forces to the two bodies of a pair.", "quantifier": "all seven combinations of periodic directions, all box lengths and parameters, all separations, over the reals, for any functions with the defining properties of erf, erfc, J0 and J1", "why_tests_cant": "The tests cover no periodic gravity; a wrong term is small compared with the direct force, and energy errors look like integration errors.", "anchors": ["src/Common/Ewald.cpp:Ewald", "src/Common/Ewald.cpp:CalculatePeriodicCorrection"]}
{"id": "C65", "title": "Orbits of binary, triple and quadruple stars", "statement": "The initial conditions for multiple stars give the stars the masses asked for, put the centre of mass where it was asked for and at the velocity asked for, put each pair on an ellipse with the semi-major axis and eccentricity asked for, at the mean anomaly drawn, moving along the ellipse, turned by the three Euler angles; inner and outer orbits of triple and quadruple stars are nested accordingly.", "quantifier": "all masses, semi-major axes, eccentricities below one, random numbers, angles and positions, over the reals, in three dimensions", "why_tests_cant": "The tests run one binary with one seed and all angles zero; the phase is random and the wrong half of the phases gives an orbit of the right size and shape.", "anchors": ["src/Ic/Ic.cpp:AddBinaryStar", "src/Headers/InlineFuncs.h:EulerAngleRotation", "src/Ic/HierarchicalSystemIc.cpp:Generate"]}
{"id": "C66", "title": "Lattices, spheres and random positions of the initial conditions", "statement": "The initial conditions put the number of particles asked for where they were asked for: a cubic lattice has one particle at the centre of every cell of the box, a hexagonal lattice is a close packing whose particles keep their distance (also across periodic boundaries), every site is written to its own place in the array, a sphere cut out of a lattice holds exactly the particles inside of a radius and at most the number wanted, the cut always ends, and the particles of spheres lie within the radius of the centre.", "quantifier": "all numbers of sites, boxes, centres, radii, random numbers and numbers of particles, over the reals, in one, two and three dimensions", "why_tests_cant": "The tests use one box with matching numbers of sites; whether the bisection ends and whether the packing closes depends on the numbers and on the geometry.", "anchors": ["src/Ic/Ic.cpp:AddCubicLattice", "src/Ic/Ic.cpp:AddHexagonalLattice", "src/Ic/Ic.cpp:CutSphere", "src/Ic/Ic.cpp:AddLatticeSphere", "src/Ic/Ic.cpp:AddRandomSphere", "src/Ic/Ic.cpp:Addr2Sphere"]}
{"id": "C67", "title": "Perturbations, velocity fields and integrals of the initial conditions", "statement": "A perturbation moves each particle to where the perturbed density has the same mass below it: along a ring at the same distance from the axis, or along a line; the iteration used ends and the particle stays in its box. The rotational field is rigid rotation. Interpolation from the grid of a velocity field reads inside of the grid, stays between the values at the nodes and is exact for fields affine in each coordinate. The mass of a box is the integral of its density.", "quantifier": "all amplitudes below one, wave numbers, wavelengths, tables, positions, velocity fields, grids and boxes, over the reals", "why_tests_cant": "The perturbed positions are accepted in tests by eye; quadrants, the edges of the grid and termination need a proof over all positions.", "anchors": ["src/Ic/Ic.cpp:AddAzimuthalDensityPerturbation", "src/Ic/Ic.cpp:AddSinusoidalDensityPerturbation", "src/Ic/Ic.cpp:AddRotationalVelocityField", "src/Ic/Ic.cpp:InterpolateVelocityField", "src/Ic/Ic.cpp:CalculateMassInBox"]}
{"id": "C68", "title": "The check of the initial conditions", "statement": "Generated initial conditions are accepted exactly if every particle has a normal mass and finite energy, position and velocity, and the particles are ordered by type. The check changes nothing but marks: with cut_box it kills exactly the particles beyond closed sides of the box, without it particles beyond closed sides are refused.", "quantifier": "all lists of particles with any floating point values, all boxes and boundary types, in any number of dimensions", "why_tests_cant": "Tests use valid initial conditions in symmetric boxes; the refusals and mixed boundaries are never exercised.", "anchors": ["src/Ic/Ic.cpp:CheckInitialConditions", "src/Common/SimulationIC.hpp:GenerateIC"]}
{"id": "C69", "title": "Clouds and clusters of the initial conditions", "statement": "The particles of a cloud add up to the mass asked for; its turbulent velocities are read from inside of the grid and have the kinetic energy asked for; the Evrard sphere has the mass profile of a density 1/r; the stars of a Plummer sphere follow its mass profile, lie within the radius given and are bound, their speeds are drawn from its distribution, and its gas is in equilibrium.", "quantifier": "all numbers of particles, masses, radii, random numbers in (0,1), velocity fields and clouds, over the reals", "why_tests_cant": "Distributions are judged by eye from one random seed and with radius 1 and matching lattices; the profiles need calculus and the bounds need all random numbers.", "anchors": ["src/Ic/BossBodenheimerIc.cpp:Generate", "src/Ic/TurbulentCoreIc.cpp:Generate", "src/Ic/EvrardCollapseIc.cpp:Generate", "src/Ic/PlummerSphereIc.cpp:Generate"]}
{"id": "C70", "title": "Keeping the tree up to date between two builds", "statement": "After new smoothing lengths are known the update of the tree gives every cell the largest smoothing length and the smoothing box of exactly its particles and changes nothing else, so the scatter-gather search finds every pair that interacts with the new lengths. After the counters of active particles are updated the active leaves hand out each active live particle of the tree exactly once. A tree that is extrapolated instead of stocked still bounds its particles.", "quantifier": "all stocked KD- and oct-trees, particle data, smoothing lengths, sets of active particles, velocities and time steps, over the reals", "why_tests_cant": "Tests run with the default of a build in every step; a missed neighbour or a particle handed out twice shows only as a small error in a force.", "anchors": ["src/Tree/KDTree.cpp:UpdateHmaxValues", "src/Tree/OctTree.cpp:UpdateHmaxValues", "src/Tree/KDTree.cpp:UpdateActiveParticleCounters", "src/Tree/Tree.cpp:ComputeActiveCellList", "src/Tree/Tree.cpp:ComputeActiveParticleList", "src/Tree/KDTree.cpp:ExtrapolateCellProperties", "src/Tree/HydroTree.cpp:BuildTree"]}
{"id": "C71", "title": "Supernova feedback and new particles", "statement": "A supernova adds the mass asked for (less than one particle short) and the energy asked for, in the stated parts of heat and motion, away from its centre and equally to new and old gas; gas outside of the sphere is untouched. A new particle takes a place of its own with an identifier of its own and starts a step of its own. The heated gas keeps what it got. Explosions go off once, and in time.", "quantifier": "all stores of particles, lists of neighbours, positions drawn, energies, masses, ratios, clocks, lists of call times, over the reals", "why_tests_cant": "The feedback has no unit test; whether energy is lost depends on the motion of the gas and on where in its block timestep a particle is, which a run of one setup does not show.", "anchors": ["src/Feedback/Supernova.cpp:SupernovaInjection", "src/Feedback/SupernovaDriver.cpp:Update", "src/Hydrodynamics/Hydrodynamics.cpp:CreateNewParticle", "src/GradhSph/GradhSph.cpp:AllocateMemory", "src/Hydrodynamics/SphLeapfrogKDK.cpp:EndTimestep", "src/MeshlessFV/MfvIntegration.cpp:EndTimestep"]}
{"id": "C72", "title": "The flux between two particles of the meshless schemes", "statement": "The face between two particles is the same from both sides and looks from one to the other. The states handed to the Riemann solver are the gas at the face, moved on in time as the moving face sees it, and always have positive density and pressure. The flux does not depend on which particle evaluates the pair, is exact in a uniform gas, goes the way the gas goes, and changes with the observer as mass, momentum and energy do, with and without viscosity.", "quantifier": "all pairs of particles, kernels, limiters, parameters of the scheme, flows that conserve mass, momentum and energy, observers, over the reals", "why_tests_cant": "Shock tube tests compare profiles of one scheme within a tolerance; a wrong sign or a wrong frame for other solvers, schemes or viscosities does not show, and no test runs the Runge-Kutta scheme.", "anchors": ["src/MeshlessFV/MfvMuscl.cpp:ComputeGodunovFlux", "src/MeshlessFV/MfvRungeKutta.cpp:ComputeGodunovFlux", "src/Hydrodynamics/FV.cpp:CalculatePrimitiveTimeDerivative", "src/Headers/RiemannSolver.h:ViscousFlux"]}
{"id": "C73", "title": "Gravity of the gas on the stars", "statement": "For every active star the search for gas ends, and the potential and acceleration the star gets are the softened gravity of all gas that gravitates, to the accuracy of the opening angle, from the nearest images in a periodic box; the gas is pulled back by the same force; the jerk used by the Hermite schemes is the rate of that acceleration.", "quantifier": "all stocked trees, positions and smoothing lengths of gas and stars, kernels with consistent softening, buffer sizes, opening angles below 1/3, one to three dimensions, over the reals", "why_tests_cant": "Tests with stars and gas have many particles in an open box, so the buffers are never short, and compare energies within a tolerance that hides the forces of single stars.", "anchors": ["src/Tree/HydroTree.cpp:UpdateAllStarGasForces", "src/Tree/Tree.cpp:ComputeStarGravityInteractionList", "src/Nbody/NbodyLeapfrogKDK.cpp:CalculateDirectHydroForces", "src/Nbody/NbodyHermite4.cpp:CalculateDirectHydroForces", "src/Headers/NeighbourSearch.h:ComputeCellMonopoleForces"]}
{"id": "C74", "title": "A step of the meshless finite-volume schemes", "statement": "Over whole steps the integrator of the meshless schemes keeps total mass and momentum whatever the exchanged fluxes and in any gravity without net force; without fluxes the gas moves by kick-drift-kick as point masses do; gravity does not change the internal energy; a particle within its step shows its neighbours the energy it has; the outcome is the same for moving observers; a step cut short by the limiter is a step of the shorter length.", "quantifier": "all states, masses, fluxes, numbers of turns of the main loop within a step, numbers of steps, force laws and dimensions, over an ordered field", "why_tests_cant": "Tests compare energy within a tolerance on problems where either gravity or pressure is strong; the error in the internal energy is of the order of the square of the step and always of the same sign, so it is taken for dissipation.", "anchors": ["src/MeshlessFV/MfvIntegration.cpp:AdvanceParticles", "src/MeshlessFV/MfvIntegration.cpp:EndTimestep", "src/MeshlessFV/MfvIntegration.cpp:CheckTimesteps", "src/MeshlessFV/MeshlessFV.cpp:UpdateArrayVariables", "src/MeshlessFV/MfvMusclSimulation.cpp:MainLoop"]}
{"id": "C75", "title": "Radiative cooling with tabulated opacities", "statement": "The properties of the gas are those of the entry of the table nearest to its density and temperature; energy from pressure and pressure from energy are inverse; the equilibrium temperature found is that at which the gas radiates what it gains from the flow; the energy moves towards that equilibrium, at first at the rate of heating, never past it; the implicit update of the meshless schemes solves its equation to the tolerance and leaves the energy positive; particles use their own surroundings whatever the order of the threads.", "quantifier": "all ordered tables (equal opacities where said), temperatures, densities, rates of heating, column densities, time steps, over the real numbers; all numbers of steps of the searches; orders of the threads", "why_tests_cant": "The searches are run on one table and a few particles; which branch is taken depends on where temperature, lowest temperature and equilibrium lie relative to the entries, and a wrong entry gives a plausible temperature.", "anchors": ["src/Headers/OpacityTable.h:OpacityTable", "src/Common/OpacityTable.cpp:GetEnergyFromPressure", "src/Hydrodynamics/EnergyRadws.cpp:EnergyFindEqui", "src/Hydrodynamics/EnergyRadws.cpp:EnergyFindEquiTemp", "src/Hydrodynamics/EnergyRadws.cpp:ImplicitEnergyUpdate", "src/Hydrodynamics/EnergyRadws.cpp:EndTimestep", "src/Thermal/RadwsEOS.cpp:Pressure"]}
{"id": "C76", "title": "Heating by stars and their ionising photons", "statement": "The temperature of the surroundings of a particle is that of a grey body in the light of all stars, with the background and the given profile around central stars; it is the same whatever the units of the code; the luminosity of accretion over time is that of the mass accreted; the number of ionising photons of a star follows the table, grows with mass and is defined for all masses.", "quantifier": "all numbers, places, masses, radii and rates of accretion of sinks, all positions in two or three dimensions, all units of length and mass, all tables and sequences of steps", "why_tests_cant": "Heating is compared in one run with one set of units and one star; a second central star, another unit of length or a sink run empty changes temperatures smoothly and nothing fails.", "anchors": ["src/Thermal/RadiativeFB.cpp:RadiativeFB::AmbientTemp", "src/Thermal/RadiativeFB.cpp:DiscHeating::AmbientTemp", "src/Thermal/RadiativeFB.cpp:SinkHeating::AmbientTemp", "src/Nbody/Nbody.cpp:UpdateStellarProperties", "src/Nbody/Nbody.cpp:LoadStellarPropertiesTable", "src/Nbody/Sinks.cpp:AccreteMassToSinks"]}
{"id": "C77", "title": "Nearest-neighbour tree of stars and sub-systems", "statement": "The nearest-neighbour tree of the stars is always completed and holds every star once; the bodies handed to the integrator contain every star exactly once, directly or in a system of two to four components, with the mass, centre of mass and momentum of the stars; a system is made of stars whose own energy dominates, its orbit is recorded with the true elements and the right type, its inner time step is a fixed part of its period, and all bodies that pull strongly enough are its perturbers.", "quantifier": "all numbers, positions, velocities, positive masses and potentials of stars, all contents of the arrays before, all binary trees", "why_tests_cant": "Tests use a binary or a triple; a star lost or counted twice in a tree of many stars, stars far apart in code units, close binaries or weak sisters appear only in long cluster runs.", "anchors": ["src/Nbody/NbodySystemTree.cpp:CreateNbodySystemTree", "src/Nbody/NbodySystemTree.cpp:BuildSubSystems", "src/Nbody/NbodySystemTree.cpp:ComputeNewBinaryOrbit", "src/Nbody/NbodySystemTree.cpp:FindPerturberLists"]}
{"id": "C78", "title": "Inner motion of sub-systems of stars", "statement": "After the step of a sub-system its members, and theirs, are in its centre of mass with its velocity, their separations and relative velocities changed only by their own motion; the forces given to the members add up to the force on the system; every sub-step is a leapfrog step of its own length, the sub-steps cover the step of the system, in between the members are where the system is, perturbers are where they have moved to, and the internal energy recorded is that of the members.", "quantifier": "all members, perturbers, hierarchies and boxes, all numbers of sub-steps, all rules for the step", "why_tests_cant": "Sub-systems need several sub-steps only in long or close encounters; a step of the wrong length looks like a different orbit of a chaotic system, and the energy in the potential of other stars is not looked at by tests.", "anchors": ["src/Nbody/Nbody.cpp:IntegrateInternalMotion", "src/Nbody/Nbody.cpp:CalculatePerturberForces", "src/Nbody/Nbody.cpp:UpdateChildStars", "src/Nbody/NbodyLeapfrogKDK.cpp:EndTimestep"]}
{"id": "C79", "title": "Initial conditions of the standard tests", "statement": "The particles set up for a standard test are the state the test is named after: the Gresho vortex is a steady flow with continuous velocity and pressure, the blast wave has the energy 1 split as asked between heat and motion, the Noh problem moves inwards at unit speed, each side of a shock tube has the density, velocity and energy asked for and lies on its side, the sound wave travels one way, the layers and the disturbance of the shear instabilities are where they should be and the layers are in balance.", "quantifier": "all places, numbers of particles, boxes, densities, pressures and adiabatic indices", "why_tests_cant": "These set-ups are what the tests are made of: the tests compare the later evolution with rough tolerances, so an error of the initial state is taken for an error of the scheme, or hidden by it.", "anchors": ["src/Ic/GreshoVortexIc.cpp:Generate", "src/Ic/SedovBlastwaveIc.cpp:Generate", "src/Ic/NohIc.cpp:Generate", "src/Ic/ShocktubeIc.cpp:Generate", "src/Ic/SoundwaveIc.cpp:Generate", "src/Ic/RayleighTaylorIc.cpp:Generate", "src/Ic/KhiIc.cpp:Generate"]}
{"id": "C80", "title": "Snapshot files keep the state", "statement": "What is written to a snapshot file is what a restart reads from it: every live particle with its identifier, type and all its numbers in code units, those of one type in their order, all stars and sinks, the times, counters and mean mass, in the text, binary and column formats and whatever units the run uses; a header can be read by itself; files of another dimension or format are refused; a file written by several processes is the one that a single process would write.", "quantifier": "all states, numbers of particles of each type, units, roundings of decimals, splits of the particles over processes and orders of their writes", "why_tests_cant": "A test reads back a few files with one type of particle, mostly dimensionless and written by one process; an error in the place of one entry of the header, in the order of the types or in a factor of a unit shows only for other mixtures, units or numbers of processes.", "anchors": ["src/Common/SimulationIO.hpp:WriteSerenFormSnapshotFile", "src/Common/SimulationIO.hpp:ReadSerenFormSnapshotFile", "src/Common/SimulationIO.hpp:WriteSerenUnformSnapshotFile", "src/Common/SimulationIO.hpp:ReadSerenUnformSnapshotFile", "src/Common/SimulationIO.hpp:WriteColumnSnapshotFile", "src/Common/SimulationIO.hpp:ReadColumnSnapshotFile", "src/Common/SimulationIO.hpp:ConvertToCodeUnits"]}
{"id": "C81", "title": "Discs around stars start in the equilibrium described", "statement": "The particles of a generated disc have its mass, the dust its share; radii and heights are drawn in proportion to the given surface density and to a Gaussian that is in hydrostatic equilibrium; the densities set belong to the masses; the gas rotates with the speed at which gravity, pressure and rotation are in balance; star and planet are on the orbit given, with their centre of mass at rest at the origin; the accretion radius of the planet is in Hill radii; the equation of state of the disc gives the sound speeds of the initial conditions.", "quantifier": "all numbers of particles, masses, power laws, radii, aspect ratios, shares of dust, random numbers, orbits and inclinations", "why_tests_cant": "A run of a disc looks like a disc with a wrong factor in the density or without the pressure support; a test with the default parameters (unit mass of the star, density falling with the radius) does not see what depends on them.", "anchors": ["src/Ic/DiscIc.cpp:Generate", "src/Thermal/DiscLocallyIsothermal.cpp:SoundSpeed"]}
{"id": "C82", "title": "Rendered images show the smoothed fields where the window says", "statement": "Every place of the array of an image belongs to one pixel; the value there is the mass- and density-weighted kernel average of the quantity at the centre of the pixel (in the slice, in the plane, or along the line of sight), over all particles and independent of their order; it is between the extremes of the particles; the table of the kernel along lines of sight is the integral of the kernel.", "quantifier": "all windows and numbers of pixels, all lists of particles, all kernels of compact support, all pixels, slices and impact parameters, all numbers of integration steps", "why_tests_cant": "The only check is by eye: a shift of half a pixel, a wrong power of the smoothing length in the weights or an un-normalised faint pixel look plausible in any image.", "anchors": ["src/Common/Render.cpp:CreateColumnRenderingGrid", "src/Common/Render.cpp:CreateSliceRenderingGrid", "src/Hydrodynamics/TabulatedKernel.cpp:initializeTableLOS"]}
{"id": "C83", "title": "Gas is ionised as far as the photons of the stars reach", "statement": "Every particle is linked to the candidate towards each star that lies closest to the line of sight; the iteration over particles and stars ends, and then a particle is ionised just if the recombinations along its links leave photons of a star (in uniform gas: inside the Strömgren sphere); recombinations are shared between stars in proportion to the photons that arrive; temperatures run from ionised to neutral with the kernel, and the energy stored is that of the temperature.", "quantifier": "all numbers of particles and stars, positions, densities and photon rates, all lists of candidates, all flags kept from the last call, all contents of memory not set, all numbers of passes", "why_tests_cant": "The result depends on the order of a recursion with memory over all particles, on flags of the last call and on uninitialised memory; a test shows one sphere of ionised gas and cannot tell a neutral particle 0, a wrong factor in the energy or a premature end from noise.", "anchors": ["src/Thermal/MultipleSourceIonisation.cpp:probs", "src/Thermal/MultipleSourceIonisation.cpp:lost", "src/Thermal/MultipleSourceIonisation.cpp:photoncount", "src/Thermal/MultipleSourceIonisation.cpp:ionisation_intergration"]}
{"id": "C84", "title": "Time steps of gas see every approaching wave, however far", "statement": "After the walk over the tree, the signal speed of every active particle is the greatest of its old one and of those that all other particles ask for (sound speeds plus approach, times the smoothing length over the distance); no pair is lost because a cell was not opened, nor, with several processors, because a cell was not sent; so that within a time step no wave of another particle crosses more than twice the Courant number times the distance.", "quantifier": "all trees with right bounds over any particles, all positions, velocities, sound speeds, smoothing lengths and first guesses, all lists of active particles", "why_tests_cant": "The walk passes by almost all cells, and its opening condition changes during the walk; a pair lost in one configuration leaves the run plausible until a shock arrives between time steps.", "anchors": ["src/Tree/Tree.cpp:ComputeSignalVelocityFromDistantInteractions", "src/MeshlessFV/MfvIntegration.cpp:Timestep"]}
{"id": "C85", "title": "The brute-force tree gives brute-force answers", "statement": "The tree of `neib_search = bruteforce` (a root and one leaf per particle) is correctly linked and stocked over the live particles after each build and each of any number of restockings; searches on it find the same particles as on the KD-tree; its gravity is a direct sum over all particles, no cell being used as a multipole; new smoothing lengths and activity counts reach every cell; multipole moments are right in every number of dimensions.", "quantifier": "all particle ranges and data, any deaths between any number of stockings, all search points and radii, all opening criteria, opening angles and domains", "why_tests_cant": "It is the reference the other trees are tested against, so a test by comparison cannot tell which side is wrong; lists shared by root and leaves are rewritten while they are read, in a way that depends on which particles have died.", "anchors": ["src/Tree/BruteForceTree.cpp:BuildTree", "src/Tree/BruteForceTree.cpp:StockTreeProperties", "src/Tree/BruteForceTree.cpp:UpdateHmaxValues", "src/Tree/BruteForceTree.cpp:UpdateActiveParticleCounters"]}
{"id": "C86", "title": "The error-controlled opening criteria control the error", "statement": "With `gravity_mac = eigenmac` or `gadget2`, a cell used as a multipole instead of being opened contributes an error to each particle of the active cell that is bounded by `macerror` times the particle's own potential (eigenvalue criterion) or last acceleration (GADGET-2 criterion); the eigenvalue stored in a cell bounds its quadrupole in every direction.", "quantifier": "all particle distributions in one to three dimensions, all trees stocked from them, all tolerances, potentials and accelerations, all periodic or open domains", "why_tests_cant": "The worst direction and the worst position in the active cell have measure zero among the configurations a test draws; the closed form for the largest eigenvalue is only an upper bound, and whether the test uses the right distance shows only in uneven cells.", "anchors": ["src/Headers/Tree.h:open_cell_for_gravity", "src/Tree/KDTree.cpp:StockCellProperties", "src/Tree/OctTree.cpp:StockCellProperties", "src/Tree/BruteForceTree.cpp:StockTreeProperties", "src/Tree/Tree.cpp:ComputeGravityInteractionAndGhostList"]}
{"id": "C87", "title": "Photon packets pass through every cell on their way, and only through these", "statement": "The cells with particles of each level of the radiation tree tile the box round all particles; every exit pointer names a cell that touches and covers the face (or -1 at the outside); the exit face of a ray is the one it leaves the cell through; a photon packet ends, its straight way is booked piece by piece on the cells it lies in, each crossed once, and it is absorbed exactly at its optical depth or leaves at a face of the outer box; the sums over a level reach the root.", "quantifier": "all particle positions, smoothing lengths and previous contents of the arrays, all depths of the tree and levels, all sources, directions, opacities and optical depths, in any dimension", "why_tests_cant": "Whether the pointers are right depends on the order of the divisions along different axes in every pair of branches; a packet that skips a cell or books a piece on the wrong one still gives a smooth field.", "anchors": ["src/Tree/KDRadiationTree.cpp:BuildTree", "src/Tree/KDRadiationTree.cpp:DivideTreeCell", "src/Tree/KDRadiationTree.cpp:OptimiseTree", "src/Tree/KDRadiationTree.cpp:FindCell", "src/Tree/KDRadiationTree.cpp:FindRayExitFace", "src/Tree/KDRadiationTree.cpp:FindAdjacentCell", "src/Tree/KDRadiationTree.cpp:SumRadiationField", "src/Thermal/MonochromaticIonisationMonteCarlo.cpp:IterateRadiationField"]}
{"id": "C88", "title": "The Monte-Carlo scheme brings every cell into ionisation balance", "statement": "After each pass of UpdateIonisationFraction every cell with particles on the current level or above has the fraction at which recombinations balance the ionisations by the counted photon paths, with fitting temperature and opacity, and all cells below get the values of their ancestor; the returned flag says whether this is so to 2 per cent; the fractions at the start are the mass-weighted means of the particles; the levels are worked through from coarse to fine and the particles get the values of their leaves.", "quantifier": "all radiation fields, densities, volumes and fractions, all depths of the tree and levels, all counts of photons, levels and iterations", "why_tests_cant": "A fixed number of turns of an alternating iteration converges or not depending on the rate, over many decades; a test at one rate shows nothing about cells lit a thousand times less.", "anchors": ["src/Thermal/MonochromaticIonisationMonteCarlo.cpp:UpdateIonisationFraction", "src/Thermal/MonochromaticIonisationMonteCarlo.cpp:UpdateCellOpacity", "src/Thermal/MonochromaticIonisationMonteCarlo.cpp:UpdateRadiationField", "src/Thermal/MonochromaticIonisationMonteCarlo.cpp:InterpolateParticleProperties", "src/Thermal/MCRadiationEOS.cpp:SoundSpeed"]}
{"id": "C89", "title": "The force loop with self-gravity accounts for every particle once", "statement": "UpdateAllSphForces leaves in every active particle of an open domain the pressure and viscous forces of all particles of the tree, plus smoothed gravity of the gravitating particles summed one by one and the field of the accepted cells, which together stand for every gravitating particle exactly once; hence the acceleration is that of the full sum up to the error of the cells. The type register never lets a type act by pressure without also acting by gravity.", "quantifier": "all correct trees, all live particle sets, all active cells and lists of active particles, all opening criteria and kinds of multipoles, all valid kernels with Newtonian gravity outside their range, all settings of the types", "why_tests_cant": "Each stage (walk, search, trimming into three lists, cells) can be right on samples while their seams drop or double a particle for some arrangement; only a statement about the composed loop for all trees excludes it.", "anchors": ["src/GradhSph/GradhSphTree.cpp:UpdateAllSphForces", "src/Common/Particle.cpp:ParticleTypeRegister", "src/Headers/NeighbourManager.h:GetParticleNeibGravity", "src/Headers/NeighbourSearch.h:ComputeFastMonopoleForces"]}
{"id": "C90", "title": "Initial conditions of uniform, layered and rotating fluids hold what they promise", "statement": "The generators for uniform boxes and spheres, the binary accretion test, the contact discontinuity, the two-dimensional shock, the dusty box, the shear flow, the Gaussian ring, the stratified (SILCC) box, the filament and the blob in a wind give each fluid the mass density x volume, the pressure asked for, smoothing lengths that fit the density (h^n rho = h_fac^n m), particles inside the box or on the right side of the interface, and the motion asked for (no net momentum of the shear flow, circular orbits, infall towards the axis).", "quantifier": "all boxes, densities, pressures, adiabatic indices, numbers and places of particles", "why_tests_cant": "A test runs one parameter file, with a box at the origin and equal numbers in both fluids; the errors show for other boxes and numbers, and a wrong mass or smoothing length only gives a slightly wrong simulation.", "anchors": ["src/Ic/UniformIc.cpp", "src/Ic/BinaryAccretionIc.cpp", "src/Ic/ContactDiscontinuityIc.cpp", "src/Ic/Shock2DIc.cpp", "src/Ic/DustyBoxIc.cpp", "src/Ic/ShearflowIc.cpp", "src/Ic/GaussianRingIc.cpp", "src/Ic/SilccIc.cpp", "src/Ic/FilamentIc.cpp", "src/Ic/BlobIc.cpp", "src/Ic/SpitzerExpansionIc.cpp"]}
{"id": "C91", "title": "The first distribution among processes shares out every particle once", "statement": "When a run with several MPI processes starts, the root process divides the simulation box by a binary tree and sends each particle to exactly one process; the shares differ by one particle at most; the domains cut up the simulation box without gaps or overlaps; each particle lies in the domain of the process it is sent to; cells are divided along a longest side.", "quantifier": "all numbers and positions of particles, all powers of two of processes, whatever was in the uninitialised memory", "why_tests_cant": "A test runs one set of particles on a few processes; ties of coordinates, odd numbers of particles at every level and few particles per process all need their own case, and a lost particle only changes the result a little.", "anchors": ["src/Mpi/MpiTree.cpp", "src/Mpi/MpiKDTreeDecomposition.cpp"]}
{"id": "C92", "title": "The time steps obey the conditions of stability", "statement": "The step a gas particle gets is positive and keeps the conditions of Courant (sound, compression, artificial viscosity), of the acceleration and of the internal energy with the multipliers the user sets, and it is not shorter than these demand; so are the steps particles begin with block and with global steps. The steps of the meshless schemes keep their conditions for the signal speed, the speed through the mesh and the acceleration; the steps of stars are positive, and with the Hermite schemes the same number of steps is made on each orbit whatever the units. The internal energy stays positive over a step.", "quantifier": "all multipliers, all states of particles, stars and sinks, all lists of neighbours", "why_tests_cant": "A run with a step that is too long often goes on and is only less accurate; a test sees a few states and not those where a bound is missed or a step becomes 0 or negative.", "anchors": ["src/Hydrodynamics/SphIntegration.cpp", "src/MeshlessFV/MfvIntegration.cpp", "src/MeshlessFV/MfvCommon.cpp", "src/Nbody/NbodyLeapfrogKDK.cpp", "src/Nbody/NbodyHermite4.cpp", "src/Hydrodynamics/SphLeapfrogKDK.cpp", "src/Hydrodynamics/SphLeapfrogDKD.cpp"]}
{"id": "C93", "title": "Load balancing divides the work evenly", "statement": "The time of a loop is shared out among the cells of the tree in proportion to their active particles and added up correctly in the cells above. The work in a box is the sum over the leaf cells of all processes, each with the part of its volume that lies in the box; the work on the two sides of a division adds up to the whole. The search for the division between two domains ends, stays inside of the box and leaves the same work on both sides to the tolerance set; without recorded work the division stays.", "quantifier": "all trees, boxes, works, numbers of processes and starting positions", "why_tests_cant": "An uneven division only makes a run slower; a loop that never ends shows only for special positions of cells; the tests run on one process.", "anchors": ["src/Headers/InlineFuncs.h", "src/Tree/Tree.cpp", "src/Tree/HydroTree.cpp", "src/Tree/KDTree.cpp"]}
{"id": "C94", "title": "Processes get the particles of the others that theirs interact with", "statement": "Every particle of one process that interacts with a particle of another, because one lies in the kernel of the other, is among the ghosts sent to that process; no particle is sent twice and none that does not exist. This also holds for particles that come into reach while the ghosts live.", "quantifier": "all trees, positions, velocities and smoothing lengths, all boxes of processes, any life time of ghosts", "why_tests_cant": "The tests run on one process; a ghost that is missing changes a density a little and only where smoothing lengths or velocities differ much across the border of a domain.", "anchors": ["src/Tree/Tree.cpp", "src/Tree/HydroTree.cpp", "src/Mpi/MpiNode.cpp", "src/Mpi/MpiControl.cpp"]}
{"id": "C95", "title": "The accretion test begins with the steady flow onto a point mass", "statement": "The table computed for spherical accretion describes the steady isothermal flow through the sonic point: every line carries the same mass through its sphere, the mass per time is the rate of Bondi, the integration follows the slope of the steady flow on the branch that falls in, and it ends with every line of the table filled. Particles of a uniform sphere are moved to where the table has the mass that was inside them, keep their order, and fall radially with the speed of the table.", "quantifier": "all sizes of the table, parameters and positions of particles", "why_tests_cant": "The test that uses it compares the rate of accretion after some time within a wide margin; a table with a wrong branch, a gap or a line written outside shows only as a transient.", "anchors": ["src/Ic/BondiAccretionIc.cpp"]}
{"id": "C96", "title": "Regularising initial positions evens them out within the box", "statement": "A regularisation round moves each particle away from its neighbours, more from those in places that are too dense, by at most half a smoothing length; a particle on a lattice stays, the centre of equal particles stays, all particles are in the box afterwards, and where the density is the one wanted no neighbour weighs more than elsewhere.", "quantifier": "all positions, smoothing lengths, densities, kernels, boxes and numbers of rounds", "why_tests_cant": "No test turns regularisation on; that a round moves particles a little in the wrong direction, or through a wall, cannot be told from the noise it is to remove.", "anchors": ["src/Ic/ICRegularization.cpp", "src/Headers/Ic.h", "src/Common/Simulation.cpp"]}
{"id": "C97", "title": "Gravity of the meshless schemes is one law, conserves momentum and belongs to the present step", "statement": "After the gravity phase of a step the acceleration and the potential of every active gas particle are those of the present positions: smoothed gravity of every other particle (Newton's outside the kernels), distant cells and all stars; forces within the gas balance; inactive particles keep theirs. This holds for the MUSCL and the Runge-Kutta scheme.", "quantifier": "all particles, masses, smoothing lengths, lists of neighbours, stars, activity flags and numbers of steps", "why_tests_cant": "Accelerations that add up over the steps, or that lack the stars when self-gravity is off, appear only in runs of one scheme with one combination of parameters, which no test has.", "anchors": ["src/MeshlessFV/MfvCommon.cpp", "src/MeshlessFV/MeshlessFVTree.cpp", "src/MeshlessFV/MeshlessFV.cpp", "src/MeshlessFV/MfvMusclSimulation.cpp", "src/MeshlessFV/MfvRungeKuttaSimulation.cpp"]}
{"id": "C98", "title": "Forces from other processes come back to the particle they belong to, once each", "statement": "With several processes, a particle sent to others before the force loop ends with the sum of what its own process and each of these processes find for it, in whatever order the messages arrive, as if all particles were on one process: the copies on the other processes are faithful, lie apart from each other and from own particles, and nothing is counted twice.", "quantifier": "all numbers of processes and particles, lists of particles sent, orders of arrival and force laws", "why_tests_cant": "Orders of arrival and stale memory in reused slots differ from run to run; the tests run on one process or compare to a tolerance.", "anchors": ["src/Mpi/MpiControl.cpp", "src/Tree/HydroTree.cpp", "src/Tree/Tree.cpp", "src/Headers/CommunicationHandler.h"]}
{"id": "C99", "title": "The first guess of the smoothing lengths fits particles spread evenly over their box", "statement": "Without smoothing lengths in the initial conditions every particle starts with one common positive value, taken from the smallest box about the particles, such that the kernel holds the intended number of neighbours if the particles are spread evenly; the value is close to what the iteration then finds and scales with the box.", "quantifier": "all particle sets, dimensions, kernel ranges and values of h_fac", "why_tests_cant": "The iteration hides a wrong start in ordinary runs; only extreme sets of particles show it.", "anchors": ["src/Hydrodynamics/Sph.cpp", "src/MeshlessFV/MeshlessFV.cpp", "src/Hydrodynamics/Hydrodynamics.cpp"]}
{"id": "C100", "title": "The first forces are those of the chosen opening criterion and of nothing before", "statement": "Before the first step every particle gets the acceleration, potential and heating that the chosen opening criterion of the tree gives, where a criterion that needs accelerations reads those of one pass with the geometric criterion; each contribution is counted once and nothing that particles held before remains.", "quantifier": "all force laws, opening criteria, particles and values held before", "why_tests_cant": "Sums over two passes show only in fields that few runs read; tests start from fresh particles with the default criterion.", "anchors": ["src/Hydrodynamics/SphSimulation.cpp", "src/MeshlessFV/MeshlessFVSimulation.cpp", "src/GradhSph/GradhSphTree.cpp", "src/Hydrodynamics/EnergyRadws.cpp"]}
{"id": "C101", "title": "Copies of particles on other processes follow their particle and give changes back to it", "statement": "A copy on another process always holds the data its particle had at the last exchange, in a place that stays its own; a change made to a copy reaches exactly the particle it is a copy of, also through periodic images, once.", "quantifier": "all numbers of processes, lists of sent particles, states and sets of changed copies", "why_tests_cant": "Misrouted copies show only in runs with several processes and only by wrong masses or heating of single particles; the places depend on all counts of all processes.", "anchors": ["src/Mpi/MpiControl.cpp", "src/Hydrodynamics/Ghosts.cpp", "src/Nbody/Sinks.cpp"]}
{"id": "C102", "title": "Sinks at periodic boundaries take mass from particles, not from ghosts", "statement": "In a periodic box the mass of all particles and sinks does not change by accretion, also when a sink reaches over a boundary and holds ghosts of particles at the other side.", "quantifier": "all particles, ghosts, neighbour lists, sinks and numbers of steps", "why_tests_cant": "Needs a sink within its radius of a boundary; the gain is one particle mass at a time and shows only in sums over particles and sinks.", "anchors": ["src/Nbody/Sinks.cpp", "src/Tree/HydroTree.cpp:GetGatherNeighbourList", "src/Hydrodynamics/Hydrodynamics.cpp:CreateBoundaryGhostParticle"]}
{"id": "C103", "title": "The controller of time-step levels keeps its clock and knows which levels are in step", "statement": "Steps and changes of the number of levels keep the time equal to the counter times the finest step; a level is active exactly at whole numbers of its steps, with all finer ones; levels are reduced as far as possible without losing step; the coarsest level in step, the last step of a level and the level of a given step are found.", "quantifier": "all sequences of calls, counters, levels and steps", "why_tests_cant": "Sequences of calls are unbounded and errors show only at certain counts; no test calls the class.", "anchors": ["src/Headers/TimeStepControl.h"]}
{"id": "C104", "title": "The exact curve drawn over a shock tube is a solution with the given states at its ends", "statement": "The curve has evenly spaced points from the left end to the right end; its densities, pressures and internal energies are positive and satisfy the equation of state; outside the two waves it has the left and right states; it is self-similar; gas that is the same on both sides stays as it is; also where a vacuum opens the densities are not negative.", "quantifier": "all gases, ends, times, numbers of points", "why_tests_cant": "States, times and numbers of points are infinitely many; the tests compare simulations with this curve and so take it for granted.", "anchors": ["src/Hydrodynamics/RiemannSolver.cpp", "src/Headers/RiemannSolver.h", "analysis/analytical.py"]}
{"id": "C105", "title": "The search for the leaf of a point ends and finds the leaf the point is in", "statement": "The search ends; what it finds is a leaf with particles whose box contains the point; at a particle it finds a leaf, and the particle's own unless leaves touch there; points within the tree have a leaf.", "quantifier": "all trees correctly linked and stocked, all points", "why_tests_cant": "Trees and points are infinitely many; gaps between the boxes of leaves depend on the particles.", "anchors": ["src/Tree/Tree.cpp", "src/Radiation/TreeRay.cpp"]}
{"id": "C106", "title": "The cells of the radiation tree near a particle are all found, and the calls end", "statement": "The list holds no cell twice, only leaves with particles whose sphere meets the search, and the leaf of every particle within the radius; the calls with arrays of doubled size end with a list that holds the particle's own leaf, so that no error is raised.", "quantifier": "all trees correctly linked, all particles, radii and sizes of arrays", "why_tests_cant": "Trees, radii and sizes are infinitely many; the retry is taken only when more than 1024 cells are near.", "anchors": ["src/Tree/KDRadiationTree.cpp", "src/Thermal/MonochromaticIonisationMonteCarlo.cpp"]}
