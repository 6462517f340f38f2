# Formal model of GANDALF: design and trusted base

Subject: the C++ code in `/repo/src` at the pinned commit.  The model is
written in Lean 4 (Mathlib) under `/verif/lean/Verif`.  The code is read as
text; it is never built or run.

## 1. Trusted base

* Lean's kernel and the three standard axioms `propext`, `Classical.choice`,
  `Quot.sound`.  No own axioms, no `sorry`, no `native_decide`, no
  `bv_decide`.  `#print axioms` of every manifest theorem shows a subset of
  those three; `Verif/Audit.lean` makes the build fail otherwise.
* The hand translation from C++ to Lean.  Every model definition cites file
  and lines and lists its simplifications.
* Mathlib definitions used in statements (`Real`, `List.Perm`, `HasDerivAt`,
  interval integrals, `BitVec`, ...).

### Numbers

`FLOAT`/`DOUBLE` values are modelled as elements of an arbitrary linearly
ordered field, or as real numbers where `sqrt`, `exp`, `log`, pi or trigonometry
is needed.  Rounding, overflow, NaN and infinities are **outside** the model
unless a definition says otherwise.  `int` counters are modelled as `Nat`/`Int`
(no overflow) except where wrap-around matters (random numbers, flags: `BitVec`).

### Memory, concurrency, files

Arrays are total functions or lists; in-place algorithms are shown to write
only inside their range.  Undefined behaviour that the code can reach is
modelled as a distinct outcome (`none`), never as a default value.  OpenMP loops
whose iterations are independent are modelled sequentially.  MPI is modelled
where schedules matter (calendar, pairwise exchange).

## 2. How each property is treated

Columns: property / what is modelled / how it is proved.

| id | model | proof |
|----|-------|-------|
| C01 | `QuickSelect` loop on an id array | invariant on the Lomuto partition, well-founded induction on the range |
| C02 | `ComputeTreeSize`, child counts | induction on level: N_l in {floor,ceil} of N/2^l |
| C03 | recursive `DivideTreeCell` on the id array | induction on depth using C01 |
| C04 | generic walk over `copen/cnext` tables, first-child/next-sibling forests | fuel-free termination, refinement to recursive visit |
| C05 | the loop filling the link table | induction on depth, instance of C04's layout predicate |
| C06 | `StockCellProperties` over a tree | structural induction |
| C07 | gather walk | C04 + C06 + triangle inequality |
| C08 | neighbour walk with hbox/bb overlap | C04 + C06 + box geometry |
| C09 | gravity walk | C04-style refinement with classification, partition by induction |
| C10 | `_first_appearance` | case analysis on total order (level, iorig) |
| C11 | `TrimNeighbourLists` | induction on the list |
| C12 | `NearestPeriodicVector` | real/ordered field arithmetic per dimension |
| C13 | `CheckBoundaries` | per dimension arithmetic |
| C14 | ghost creation/refresh | algebra on reflect/shift; chain induction |
| C15 | ghost passes over dimensions | induction over passes |
| C16 | `ConstructAllGhosts` | induction over dimensions |
| C17 | `ComputeBlockTimesteps` state machine | inductive invariant over all histories |
| C18 | `ComputeTimestepLevel` with real log | real analysis lemmas |
| C19 | `CheckTimesteps` | integer arithmetic |
| C20 | both loops of `AccreteMassToSinks` | fold invariants and algebra |
| C21 | sink creation loop | algebra, capacity invariant |
| C22 | `DoDeleteDeadParticles` | loop invariant with multisets |
| C23 | leapfrog maps | algebra |
| C24-C25 | SPH pair force | finite-sum antisymmetry, sign analysis |
| C26 | flux loop | induction over the pair list |
| C27 | limiters | ordered field arithmetic |
| C28 | HLLC solver | field algebra |
| C29 | rotation matrices | trigonometric identities |
| C30-C32 | kernels | calculus on piecewise polynomials |
| C33 | table lookup | floor arithmetic |
| C34 | flags | `BitVec 32` extensionality |
| C35 | sorts | loop invariants |
| C36 | box predicates | ordered field arithmetic |
| C37 | xorshift | linear algebra on `BitVec 64`: explicit inverses |
| C38 | id check | loop semantics; the property is false, negation proved |
| C39 | parser on character lists; all keys that the code reads | string lemmas; the keys read compared with the keys registered; deviations proved as negations |
| C40 | calendar table | modular arithmetic |
| C41 | pairwise blocking exchange transition system | progress by matching order, multiset invariant |
| C42 | domain tree | induction on the tree |
| C43 | byte codecs | induction over records |
| C44 | pruned tree copy | induction over the forest |
| C45 | direct force sums | finite sums, derivatives |
| C46 | Hermite predictor/corrector | polynomial identity |
| C47 | output schedule | inductive invariant |
| C48 | crash model of the output sequence | reachable-state enumeration as an inductive invariant |
| C49 | conversions | field algebra |
| C50 | h iteration of the three schemes (`Model/Smoothing`), neighbour sums over ℝ | loop invariant over any midpoint rule; false for the meshless scheme (witnesses) |
| C51 | `InvertMatrix`, `ComputeGradients` (`Model/Gradients`) | ring identities, quadratic form of the moment matrix |
| C52 | recorded step length | invariant of the block-step scheduler; negations for deeper levels, cut steps and two ticks per step |
| C53 | time-dependent viscosity | range of alpha by convexity for cd2010 and for one mm97 evaluation; negations: mm97 rates add up, are lost with gravity, have the wrong sign there |
| C54 | neighbour levels | bounds from both sides over folds of updates, thread independence; negation for smoothed-gravity neighbours |
| C55 | star region of the exact solver | monotone concave pressure function: existence and uniqueness by the intermediate value theorem, Newton from below, convergence by monotone bounded sequences |
| C56 | sampled exact solution | jump conditions algebraically, self-similar Euler equations by differentiation, right side by mirror symmetry |
| C57 | dust drag | test particles against the unique solution of the drag equation (derivative of an integrating factor), exponential remainder for the series branch; pair sums antisymmetric under exchange of images; heating summed over lists; copy loop by induction; negations for the position update, LP12, zero normalisation, MPI cooling, stale index, no gas |
| C58 | gravity of distant cells | derivative along lines for the gradients and the Taylor polynomials; error bounds from `1/b` and `1/b³` expanded in the size ratio with explicit remainders, first moments vanish about the centre of mass; `Summary` (C06) gives the moments, C09 the cells; negation: the walk of gas cells measures from the centre of the cell, so the error at a particle is not bounded by the opening angle |
| C59 | oct-tree build | invariant of the division of one cell (forest grafting, lists held by the leaves, cells in use, cubes), of a pass over a level, of the loop; ends when no cube of the last level's size is crowded and cells suffice (count of unfinished cells); negations: the first build uses the box ±9.9e20, crowds never separated, too few cells for two particles |
| C60 | oct-tree stocking | order of the levels from C59's `Built`; invariant over the cells done so far (every child before its parent), same `Summary` specification as the KD-tree; then `Tree.OK`, and build + stock + gather search composed; negations: leaves without gravitating mass get no size, the velocity box is never reset, restocking without leaves wipes the tree |
| C61 | equations of state | each class as a record of its five functions over ℝ; the ideal gas as a specification of laws between the values (not formulas); derivative of the pressure along the curve against the sound speed; negations: temperature of adiabatic and of ionised gas, exponents of the polytrope swapped, sound speed of barotropic gas |
| C62 | diagnostics | the loops as folds over lists; totals of mechanics as specification (centre of mass by balance, angular momentum by the cross product in space); pairs by symmetry; frame change; MPI by partition of gas and stars; negations: external energy, dead particles and stray stars with MPI |
| C63 | external potentials | real analysis: derivatives along arbitrary curves; free fall keeps the energy; negations: the vertical field counts half, `kgrav` outside of the arrays, ignored parameters |
| C64 | Ewald sums | the sums over the reals with erf, erfc, J0, J1 as parameters (the exact functions shown to qualify); derivatives along arbitrary curves term by term; reflections of the index sets; table layout, reading range and trilinear weights; strength of the far field from Gauss's law; negations: waves with two periodic directions, potential not interpolated, wrapping of open directions, `EFratio < 1` |
| C65 | multiple stars | `AddBinaryStar` step by step over the reals; energy and angular momentum of the relative orbit; Newton's residual by Taylor's estimate, termination for e ≤ 1/2; comparison with position and velocity at the eccentric anomaly (whose rate is proved); orthogonality of the Euler matrix; negations: stars on the way to pericentre move apart, `psirot` is ignored |
| C66 | lattices and spheres | the loops as writes to an array; index arithmetic; tiling of the box by the cells; separation of the packing from an inequality between integers, by parity; invariant of the bisection, its termination by right-continuity of the number of particles inside; compaction in place as a filtered list; rotations keep distances; negations: lattices outside of their box, odd numbers of rows, centres ignored |
| C67 | perturbations and velocity fields | azimuth by quadrants; search of the table by induction, the exact angle by the intermediate value theorem and monotony; the sine iteration as a contraction; rotation and trilinear interpolation as identities, weights as a partition of unity; sums over the grid in closed form; negations: half axes, edges of the grid, thin boxes |
| C68 | check of the initial conditions | floating point values as nan, infinities and rationals; the two loops as recursions; acceptance iff; order of neighbours implies order of all; marks element by element; negations: mirrors on one side, particles outside only printed |
| C69 | clouds and clusters | masses as lists; bounding boxes by folds, the grid of C67; kinetic energy as a sum; Plummer: inverse of the mass profile, monotony, envelope by the weighted inequality of means, loops over a stream of random numbers with fuel, equilibrium as a derivative; negations: mass of Boss-Bodenheimer clouds, density compared with the square, clouds on one side, radii other than 1, truncated sphere |
| C70 | refresh of the tree | `Summary` of C06 re-established for new smoothing lengths by induction over the KD-tree and over the level order of the oct-tree, composed with C08; active lists: the leaves are the unopened cells, filters and permutations; extrapolation: `Summary` shifted for a common velocity, negation with two particles that move apart |
| C71 | supernova feedback | store with growing memory; the result of the loops by induction over neighbours and positions; mass, energy and momentum as sums over the store; integrators as functions of one particle, composed with the heating; drivers as folds over the times of the calls; negations where velocities, steps and identifiers are lost |
| C72 | flux of a pair (MUSCL, Runge-Kutta) | area, prediction, solver, viscosity and sum as one function of two particles; the prediction against a specification of smooth flows by derivatives of mass, momentum and energy; symmetry by reversal of the HLLC solver; uniform gas by C28 and C29; change of the observer for every solver; negations for the Runge-Kutta scheme, for the viscous energy flux and for free fall; order of the prediction as a derivative by the step |
| C73 | gravity of gas on stars | the repeated search as a loop with fuel, ended by the growth of the cell buffer; the loops over lists as sums; with the partition of C09 and the error bounds of C58 the total against the softened sum over all particles; derivative of the sums for the jerk; negations for short buffers, periodic boxes, test dust and the jerk of cells |
| C74 | a step of the meshless schemes | a turn of the main loop as a function of the state, with the fluxes (C26, C72) and the force as parameters; invariants over the turns within a step; momentum from the balance of fluxes and forces; without fluxes refinement to the kick-drift-kick of C23; exact change of the internal energy, hence negations wherever the acceleration varies and within steps; boosts commute with the step; fluxes as sums over pairs, and the energy of the mass they move in a uniform field |
| C75 | radiative cooling | tables as functions with sizes, the binary searches, the two searches for a temperature with fuel and reads outside the table as an outcome; invariants of the brackets and halving of their width, so both searches end within the tolerance; monotony of the balance in the temperature; the relaxation as a function of time with its derivative; refinement to the step of C74; negations for the logarithm of the density, for gas that cools, for tables beginning at the lowest temperature, for gas above the nearest entry, for the interpolation and for the variable shared by the threads |
| C76 | heating by stars | temperature as sum over lists of sinks, `none` for not a number; closed form of the loop; conversion to SI with the units of C49; the rate of accretion as a function of the events of a run and its sum over time, by induction over the steps of the star; the search for the bin of a mass and bounds of the interpolation; negations for binaries, too few sinks, large sources, units of length and luminosity, whole particles, empty sinks, light stars, missing tables |
| C77 | tree of stars, sub-systems | construction as rounds over lists of free nodes with fuel; a pair of mutually nearest free nodes always exists (first node of the closest pairs), free nodes plus nodes stay `2N`; walk over the nodes with the set of nodes whose parent is still to come: the bodies so far are made of the stars so far (inductive relation `Made`, closed under permutation), masses and momenta add up; orbit against the Kepler ellipse of C65; negations for stars farther apart than `√big_number`, the crossing time, the type of larger systems and the search for perturbers |
| C78 | inner motion of sub-systems | hierarchies as trees with members indexed by `Fin N`, `UpdateChildStars` by recursion with the displacement as argument; the loop over sub-steps with fuel and as iterates of one round; forces of C45; relative motion of the members against a leapfrog step under Newton's gravity (displacements of the centre of mass cancel); that the clocks stand still for all rounds by induction; negations for the second sub-step (for all parameters of the step), the place between sub-steps, the jerk of perturbers and the energy |
| C79 | initial conditions of the standard tests | what is set for a particle as a function of its place, over the reals; the vortex as a flow of C72's specification, its equations by derivatives along the coordinates (any circular motion with `dP/d(r^2) = omega^2/2` is steady), the offset `small_number` bounded; sums over the list of particles for the blast wave; negations for the energy of the cold gas, the particle at the centre, boxes without the origin, the adiabatic wave, the pressure of the layers and boxes elsewhere |
| C80 | snapshot files | a file as the list of its values, writers as functions to lists, readers in a state monad over the rest of the file that can fail; a relation `Reads` closed under sequence; the units of C49; decimal rounding as a function with a relative error; for several processes a disk as a partial function of the position and blocks written in any order; negations for the types, the time and the column format |
| C81 | discs | the assignments of the generator as real functions of the radius, height and random numbers; mass by the integral of the power law, vertical norm by the Gaussian integral, balance by derivatives (functions that go locally as a power of the radius are closed under products and quotients), the planet by energy and angular momentum of the relative orbit; negations for the gas speed, the power 2, two dimensions, the Hill radius and the equation of state |
| C82 | rendered images | the loops over particles and their ranges of pixels as a fold of updates of an array over the integers; closed form of the fold by induction, pixels outside the ranges have a vanishing kernel, so that a pixel is a sum over all particles; compared with the smoothed fields of a separate specification, columns with Lebesgue integrals along the line; the table by comparison of sums and integrals of antitone functions; negations by witnesses (shift, faint pixels, power of h) |
| C83 | ionisation by stars | state = the arrays of photons, shares and flags; the recursion `lost` with its memory, the loops and the `while` loop with fuel; an invariant says that every visited place has the value of its equation with shares from before or after the pass; termination by the rank (number of particles closer to the star); with one star, passes fix one more rank each and the end is the unique solution of the recursion along the links (inductive relation `Used`); Strömgren's radius follows in uniform gas; negations by evaluated witnesses |
| C84 | limits on time steps from distant particles | the walk as `Walk.walk` whose state is the function of signal speeds (so that `dt_min` is a function of the state); induction over the forest with the invariant that speeds only grow; one lemma says that cells that are not opened hold nothing beyond the present speeds: in one dimension from the bounds of boxes, velocities and sound speeds; inside the box of the active cell in any dimension; negations by evaluated walks over trees of three cells |
| C85 | brute-force tree | build and stocking with the shared array `inext`; invariant `Holds` (root list chained through the particles left, each leaf its particle or nothing) under any sequence of stockings; from it `Tree.OK`, so that C07, C09 and C70 apply; direct sum by an invariant of the walk; negation in one dimension |
| C86 | opening criteria | bound of the quadratic form of the stored moments by `lambda` (Cauchy-Schwarz for traceless matrices); walk invariant: accepted cells passed the test; bounds for the neglected potential and the error of the acceleration with the ratio `κ` of true to tested distance; negations for `κ = 1` with true potentials and accelerations |
| C87 | radiation tree | tiling by induction over the division with QuickSelect (C01); invariant of an exit pointer: the two cells lie on the two sides of a division of a common ancestor; order of the cells of a level along a direction, strictly falling along the packet, gives the end and that no cell is crossed twice; negations for dead particles, zero components, the level check and the read of cell -1 |
| C88 | ionisation balance | the inner loop as iteration of x -> a/(x+s+a): error turned over in each turn and shrunk by 1/(1+a) in two, enclosure of the balance between two values (meaning of the flag); loop over the cells by induction over the tree in pre-order; mass-weighted means by induction; negations: faintly lit cells, no radiation levels |
| C89 | gravity loop, end to end | composition of C09 (walk), C11 (search and trims), C24 (force routines) and C58 (cells): the manager of an open domain is not moved by the trims (invariant over the active particles), the three lists are filters whose sums add up to that over the walk's lists, whatever is not in the neighbour list is outside both kernels (triangle inequality) where the smoothed law is Newton's |
| C90 | initial conditions of fluids | each generator as a function from places (of the lattice or random generator, C66) to particles; masses by summation of equal shares, pressures and smoothing lengths by algebra of real powers, momentum of shear layers and rings by the vanishing sum of sines over a circle, mass of the stratified box by integration of the profile; defects by general counterexamples |
| C91 | first MPI distribution | `DivideTreeCell`, the strict QuickSelect of the MPI tree, the leaf lists and what is sent, as functions on arrays with uninitialised cells; induction over the depth of the tree: the index array is permuted within the slice of the cell, the boxes are consistent, the leaf lists together are the slice; then the links of C05 and `cuts_up` of C42 |
| C92 | time-step laws | the functions `Timestep` of the schemes over ℝ, the signal speed as a fold over the neighbours, the turn of the energy equation in both leapfrogs; conditions stated as inequalities on the step (`Stable`) apart from the code; maximality with the small numbers of the code; with C18 for block steps; witnesses where the step is 0 or too long |
| C93 | work sharing | `FractionalBoxOverlap`, the walk of a pruned tree, the bisection with fuel, `AddWorkCost` and the recursive counters over an ordered field; specification: part of the volume of leaf cells in a box (`share`, `inBox`); the walk by induction over the forest of the links; the bisection by its invariant (too little on the left, too much on the right) and the Lipschitz bound of the work; witnesses for edges in common |
| C94 | ghosts of other processes | the walk of `FindBoxGhostParticles` over the tree of C07, both trees, the boxes of the processes and the choice of processes; specification: `Near`, `Reaches` on positions and smoothing lengths only; the collecting search of C07 with the set of particles needed; cells that move with their particles (from the momentum of C06); witnesses built with the tree the code makes of two particles |
| C95 | initial conditions of spherical accretion | the whole of `ComputeBondiSolution` and the stretching of particles in `Generate`, over the reals; specification: energy of an isothermal flow, mass through a sphere, points on the broken line through a table, the classical scheme of Runge and Kutta; end of the loops from the growth of the logarithm of the radius, derivative of the energy along the slope, the search as a first place |
| C96 | regularisation of initial positions | `ParticleRegularizer::operator()` with any neighbours, smoothing lengths and densities found in a round, the weight and the smoothed density of `DefaultRegularizerFunction`; the loop over neighbours as a sum, end of the loops round the box by the number of box lengths, double sum that changes sign, scaling of the grid with the smoothing length, cubic spline for the witness |
| C97 | gravity of the meshless schemes | `ComputeSmoothedGravForces`, `ComputeDirectGravForces`, `ComputeStarGravForces`, `UpdateAllGravForces` with any lists and field of cells, `ZeroAccelerations` and the gravity phases of both main loops; folds as sums, permutation of the lists, antisymmetry of the pair force, induction over the steps for the Runge-Kutta loop |
| C98 | forces from other processes | slots for received particles, unpacking, force loop as any function of a particle, messages back and their addition for any record types, in any order of arrival; the records of the SPH and meshless schemes; induction over messages and records, disjoint blocks of slots, sums over processes |
| C99 | first guess of the smoothing lengths | bounding box as folds over the particles, numbers of neighbours and lengths in one to three dimensions; induction over the particles, uniqueness of the smallest box, powers of the guess against volumes of balls |
| C100 | first forces of a simulation | passes of set-up with their criterion, tree build, set-back and addition, for any force law that may read the accelerations recorded in the tree; unfolding of the one or two passes against a specification with rough and final forces |
| C101 | copies on other processes | buffers, displacements and exchange as lists, places behind own particles, upper bound on ends of blocks, walk over periodic images; slices and entries of concatenations by induction, fold over the received records seen from one particle |
| C102 | sinks and periodic ghosts | new ghosts followed by the accretion of C20 with lists that hold ghosts; balance of C20 split into particles and ghosts, induction over turns |
| C103 | controller of time-step levels | the class as a state machine with reads outside arrays as failure; invariant by induction over calls, divisibility by powers of two, logarithm to base two with truncation |
| C104 | exact curve of the shock tube | the wrapper over the model of the exact solver; case analysis on the waves of C56; false in a vacuum, where the answer of the vacuum test is not looked at |
| C105 | leaf of a point | the walk as a recursive function with early return; equal to a recursive search by induction over the tree; the last claim is false: boxes shrink to the particles and leave gaps |
| C106 | cells of the radiation tree near a particle | the walk with an array of limited size, and the loop of calls; equal to a recursive search by induction over the tree; triangle inequality; induction over doublings |

## 3. Which code is modelled where

`Verif/Model` holds the translation of the code, `Verif/Spec` the specifications that do not mention it,
`Verif/Proof` the lemmas, `Verif/Prop/Cxx.lean` the theorems of property Cxx with their examples.  All paths
below are relative to `/repo/src`; exact lines stand beside each definition.

| model file | code | properties |
|---|---|---|
| `QuickSelect` | `Tree/KDTree.cpp` QuickSelect | C01 |
| `KDStructure` | `Tree/KDTree.cpp` ComputeTreeSize, CreateTreeStructure | C02, C05 |
| `KDBuild` | `Tree/KDTree.cpp` BuildTree, DivideTreeCell | C03 |
| `KDStock` | `Tree/KDTree.cpp` StockTree, StockCellProperties | C06 |
| `TreeWalk`, `Forest`, `LeafList` | the loop common to all tree walks; meaning of cell tables | C04 |
| `TreeSearch` | `Tree/Tree.cpp` gather, neighbour, gravity and periodic gravity walks | C07-C09 |
| `NeighbourManager` | `Headers/NeighbourManager.h` | C10, C11 |
| `Box` | `Headers/DomainBox.h`, box and periodic functions of `Headers/InlineFuncs.h` | C12, C36 |
| `Boundary` | `Common/Integration.cpp` CheckBoundaries, `Nbody/Nbody.cpp` CheckBoundaries | C13 |
| `BoundaryGhosts` | `Hydrodynamics/Hydrodynamics.cpp`, `Hydrodynamics/Ghosts.cpp`, tree search for ghosts | C14, C15 |
| `GhostFinder` | `Headers/GhostNeighbours.hpp` | C08, C16 |
| `BlockSteps` | `Common/Simulation.cpp` timesteps, CheckTimesteps and EndTimestep of all integrators | C17-C19, C52 |
| `Sinks` | `Nbody/Sinks.cpp`, DeleteDeadParticles | C20-C22 |
| `Leapfrog` | the four leapfrog integrators | C23 |
| `SphForces` | `GradhSph/GradhSph.cpp`, `GradhSph/GradhSphTree.cpp` force loops | C24, C25, C53, C54 |
| `FvFlux` | `MeshlessFV/MfvMuscl.cpp`, `MeshlessFV/MeshlessFVTree.cpp` flux loop | C26 |
| `SlopeLimiter` | `Headers/SlopeLimiter.h` | C27 |
| `Hllc` | `Headers/RiemannSolver.h` HLLC | C28 |
| `ExactRiemann` | `Hydrodynamics/RiemannSolver.cpp` | C29, C55, C56 |
| `Kernel` | `Headers/SmoothingKernel.h` and the kernel constructors | C30-C33 |
| `Flags` | `Headers/Flags.h` | C34 |
| `Sorting` | insertion sorts and heapsort of `Headers/InlineFuncs.h` | C35 |
| `Random` | `Headers/RandomNumber.h` | C37 |
| `UniqueIds` | `Headers/InlineFuncs.h` VerifyUniqueIds | C38 |
| `Params`, `ParamKeys` | `Common/Parameters.cpp` | C39 |
| `ParamReads` | every read of `intparams`, `floatparams`, `stringparams` in `src/` | C39 |
| `MpiCalendar` | `Mpi/MpiControl.cpp` CreateLeagueCalendar | C40 |
| `MpiExchange` | `Mpi/MpiKDTreeDecomposition.cpp` exchange of particles | C41 |
| `MpiDomains` | `Mpi/MpiTree.cpp`, LoadBalancing, FindBoxOverlapParticles | C42 |
| `MpiPack` | pack and unpack of `Tree/Tree.cpp`, `Common/CodeTiming.cpp`, `Mpi/MpiControl.cpp` | C43 |
| `PrunedTree` | `Tree/Tree.cpp` pruned trees, `Tree/HydroTree.cpp` | C44 |
| `NbodyForces` | direct and smoothed forces of `Nbody/` | C45 |
| `Hermite` | the three Hermite integrators | C46 |
| `Output` | `Common/Simulation.cpp` Output, restart files | C47, C48 |
| `Units` | `Common/SimUnits.cpp` | C49 |
| `Smoothing` | ComputeH of the three schemes and its callers | C50 |
| `Gradients` | InvertMatrix, ComputeGradients | C51 |
| `Dust` | `Common/Dust.cpp`, `Headers/DragLaws.h` (not the iteration for `h_dust`) | C57 |
| `Multipole` | `Headers/NeighbourSearch.h:335-827`, `Headers/TreeCell.h:55-77` (second-order terms of the fast expansion are compiled out) | C58 |
| `OctTree` | `Tree/OctTree.cpp:97-127, 210-445` (`id`, `cexit` and `ids` are not modelled; writing past the arrays ends the model as `overflow` or `levels`) | C59 |
| `OctStock` | `Tree/OctTree.cpp:454-726` (`uold`-type fields not read by the searches and the MPI work counters are not modelled) | C60 |
| `Eos` | `Thermal/AdiabaticEOS.cpp`, `IsothermalEOS.cpp`, `BarotropicEOS.cpp`, `Barotropic2EOS.cpp`, `PolytropicEOS.cpp`, `LocallyIsothermalEOS.cpp`, `DiscLocallyIsothermalEOS.cpp`, `IonisingRadiationEOS.cpp`, `Thermal/EOS.cpp:25-72`, `ComputeThermalProperties` (not `RadwsEOS`, `MCRadiationEOS`) | C61 |
| `Diagnostics` | `Common/SimAnalysis.hpp:51-181` (without binary statistics), `Common/Simulation.cpp:1620-1643`, `Mpi/MpiControl.cpp:1232-1275` | C62 |
| `ExternalPotential` | `Headers/ExternalPotential.h:60-200`, `Common/Simulation.cpp:1163-1181` | C63 |
| `Ewald` | `Common/Ewald.cpp:40-480, 499-1017` (not: no periodic direction at all, the table file, the Newton-Cotes error) | C64 |
| `Binary` | `Ic/Ic.cpp:265-365`, `Ic/HierarchicalSystemIc.cpp:54-153`, `Headers/InlineFuncs.h:256-306` (three dimensions; the smoothing lengths left out) | C65 |
| `Lattice` | `Ic/Ic.cpp:435-842`, `Headers/InlineFuncs.h:314-339` (`powf` exact, lattice spheres in two and three dimensions) | C66 |
| `Perturb` | `Ic/Ic.cpp:33-95, 846-1021, 1265-1354`, one particle at a time | C67 |
| `CheckIc` | `Ic/Ic.cpp:177-260` | C68 |
| `Cloud` | `Ic/BossBodenheimerIc.cpp:91-129, 169-181`, `Ic/TurbulentCoreIc.cpp:104-201`, `Ic/EvrardCollapseIc.cpp:97-107`, `Ic/PlummerSphereIc.cpp:88-193` (units left out) | C69 |
| `TreeRefresh` | `Tree/KDTree.cpp:1092-1254`, `Tree/OctTree.cpp:736-859`, `Tree/Tree.cpp:60-198`, choice in `HydroTree.cpp:332-364` | C70 |
| `Supernova` | `Feedback/Supernova.cpp:52-167`, `SupernovaDriver.cpp:48-264`, `Hydrodynamics.cpp:132-179`, `GradhSph.cpp:83-111`, steps of `SphLeapfrogKDK.cpp` and `MfvIntegration.cpp` | C71 |
| `Godunov` | `MeshlessFV/MfvMuscl.cpp:76-251`, `MfvRungeKutta.cpp:64-213`, `FV.cpp:79-95`, `RiemannSolver.h:453-515` | C72 |
| `StarGas` | `Tree/HydroTree.cpp:552-654`, `CalculateDirectHydroForces` of the four N-body schemes | C73 |
| `FvStep` | `MeshlessFV/MfvIntegration.cpp:42-270`, `MeshlessFV/MeshlessFV.cpp:176-192`, order of calls in `MfvMusclSimulation.cpp:84-338` | C74 |
| `Radws` | `Headers/InlineFuncs.h:650-678`, `Headers/OpacityTable.h:79-194`, `Common/OpacityTable.cpp:176-214`, `Hydrodynamics/EnergyRadws.cpp:107-259, 347-718`, `Thermal/RadwsEOS.cpp:57-125` | C75 |
| `StarHeat` | `Thermal/RadiativeFB.cpp:37-296`, `Nbody/Nbody.cpp:142-222`, `Nbody/Sinks.cpp:494, 595-610` | C76 |
| `SystemTree` | `Nbody/NbodySystemTree.cpp:76-245, 255-512, 608-675, 792-897` | C77 |
| `InnerMotion` | `Nbody/Nbody.cpp:375-816`, `NbodyLeapfrogKDK.cpp:243-407` | C78 |
| `TestIcs` | `Ic/GreshoVortexIc.cpp:95-121`, `SedovBlastwaveIc.cpp:101-212`, `NohIc.cpp:101-111`, `ShocktubeIc.cpp:121-174`, `SoundwaveIc.cpp:83-124`, `RayleighTaylorIc.cpp:120-161`, `KhiIc.cpp:95-160` | C79 |
| `Snapshot` | `Common/SimulationIO.hpp:162-540, 551-1234, 1244-1650, 1962-2253, 2507-2559` | C80 |
| `Disc` | `Ic/DiscIc.cpp:60-270`, `Thermal/DiscLocallyIsothermal.cpp:42-80` | C81 |
| `Render` | `Common/Render.cpp:99-250, 263-414`, `Hydrodynamics/TabulatedKernel.cpp:144-182` | C82 |
| `Ionise` | `Thermal/MultipleSourceIonisation.cpp:72, 82-219, 302-437, 474-574, 589-702` | C83 |
| `Signal` | `Tree/Tree.cpp:888-1039` (open and periodic boxes; mirrors as a list of images), `MeshlessFV/MfvIntegration.cpp:8-34` | C84 |
| `BruteTree` | `Tree/BruteForceTree.cpp:214-587` (not memory and work counters; the eigenvalue criterion is in `OpenCrit`) | C85 |
| `OpenCrit` | `Tree/KDTree.cpp:1057-1079` (also `OctTree.cpp:694-716`, `BruteForceTree.cpp:466-487`), `KDTree.cpp:903` | C86 |
| `RadTree` | `Tree/KDRadiationTree.cpp` (division, bounding boxes, exit pointers, descent, exit face, sums), `Thermal/MonochromaticIonisationMonteCarlo.cpp` (photon loop) | C87 |
| `MonoIon` | `Thermal/MonochromaticIonisationMonteCarlo.cpp:171-212, 449-545, 662-707, 716-830`, `Thermal/MCRadiationEOS.cpp:92-123` | C88 |
| `GravLoop` | `GradhSph/GradhSphTree.cpp:498-620` (without stars 600-607 and Ewald 558-580), `Common/Particle.cpp:31-71` | C89 |
| `FluidIcs` | `Ic/UniformIc.cpp`, `Ic/SpitzerExpansionIc.cpp`, `Ic/BinaryAccretionIc.cpp` (gas), `Ic/ContactDiscontinuityIc.cpp`, `Ic/Shock2DIc.cpp`, `Ic/DustyBoxIc.cpp`, `Ic/ShearflowIc.cpp` (1-2 D), `Ic/GaussianRingIc.cpp`, `Ic/SilccIc.cpp`, `Ic/FilamentIc.cpp` (profile, velocities), `Ic/BlobIc.cpp` | C90 |
| `MpiSplit` | `Mpi/MpiTree.cpp` 230-424 (`DivideTreeCell`, `QuickSelect`), `Mpi/MpiKDTreeDecomposition.cpp` 56-275 (not the broadcast of the tree, the bounding boxes and the stars) | C91 |
| `StepLaw` | `Hydrodynamics/SphIntegration.cpp` 75-134, `MeshlessFV/MfvIntegration.cpp` 4-34, `MeshlessFV/MfvCommon.cpp` 256-298 (signal speed), `MeshlessFV/MfvMusclSimulation.cpp` 285-306, `Nbody/NbodyLeapfrogKDK.cpp` 383-407, `Nbody/NbodyLeapfrogDKD.cpp` 342-366, `Nbody/NbodyHermite4.cpp` 537-577, `Nbody/NbodyHermite6TS.cpp` 620-660, `Nbody/Sinks.cpp` 735-736, energy in `SphLeapfrogKDK.cpp` 114, 248-262 and `SphLeapfrogDKD.cpp` 123, 199-206 | C92 |
| `WorkShare` | `Headers/InlineFuncs.h` 395-443 (FractionalBoxOverlap), `Tree/Tree.cpp` 1687-1731 (ComputeWorkInBox), 1775-1787 (AddWorkCost), `Tree/HydroTree.cpp` 1554-1618 (FindLoadBalancingDivision), `Tree/KDTree.cpp` 1264-1318 (UpdateWorkCounters) | C93 |
| `MpiGhosts` | `Tree/Tree.cpp` 1611-1678 (FindBoxGhostParticles), `Tree/HydroTree.cpp` 1431-1452 (SearchMpiGhostParticles), `Mpi/MpiNode.cpp` 98-141, `Mpi/MpiControl.cpp` 1002-1051 (first part of SendReceiveGhosts) | C94 |
| `Bondi` | `Ic/BondiAccretionIc.cpp` 50-360 (without the making of the sphere, which is C66) | C95 |
| `Regularise` | `Ic/ICRegularization.cpp` 45-151, `Headers/Ic.h` 1194-1287, `Common/Simulation.cpp` 1148-1159 (building of tree and ghosts: any) | C96 |
| `MfvGravity` | `MeshlessFV/MfvCommon.cpp` 375-519, `MeshlessFV/MeshlessFVTree.cpp` 661-843 (lists, cells and Ewald: any), `MeshlessFV/MeshlessFV.cpp` 296-312, gravity phases of `MfvMusclSimulation.cpp` 156-181 and `MfvRungeKuttaSimulation.cpp` 123-126 | C97 |
| `MpiForces` | `Mpi/MpiControl.cpp` 744-985, `Tree/HydroTree.cpp` 1662-1890, `Tree/Tree.cpp` 1836-1960 (particles; cells and work left out), `Headers/CommunicationHandler.h` 33-338 (numbers, flags, dust, fluxes left out) | C98 |
| `HGuess` | `Hydrodynamics/Sph.cpp` 71-117, `MeshlessFV/MeshlessFV.cpp` 196-293, `Hydrodynamics/Hydrodynamics.cpp` 184-208; from `GradhSphSimulation.cpp` 313-319 and `MeshlessFVSimulation.cpp` 487-488 when `Ngather` is set | C99 |
| `StartUp` | `Hydrodynamics/SphSimulation.cpp` 316-488, `MeshlessFV/MeshlessFVSimulation.cpp` 516-525, 600-688, `GradhSphTree.cpp` 609-620, `MeshlessFV.cpp` 299-311 (processes, ghosts, dust, dead particles left out) | C100 |
| `GhostSync` | `Mpi/MpiControl.cpp` 540-586, 626-713, 1053-1157, `Hydrodynamics/Ghosts.cpp` 158-215, `Nbody/Sinks.cpp` 707 (`MPI_Alltoallv` by its meaning; which particles are sent is C94), `Headers/MeshlessFV.h` 112-118 | C101 |
| `SinkGhost` | `Hydrodynamics/Hydrodynamics.cpp` 259-289, `Nbody/Sinks.cpp` 365-769, `Tree/HydroTree.cpp` 451-471 (periodic ghosts only; mirrors turn the velocity and are left out) | C102 |
| `StepControl` | `Headers/TimeStepControl.h` 37-194 (counters unbounded; `tlast` follows from `nlast`; the assertion of reset left out) | C103 |
| `ShockTube` | `Hydrodynamics/RiemannSolver.cpp` 559-624 (positive times, at least two points) | C104 |
| `LeafOf` | `Tree/Tree.cpp` 1044-1090 | C105 |
| `GatherCells` | `Tree/KDRadiationTree.cpp` 611-613, 679-740, `Thermal/MonochromaticIonisationMonteCarlo.cpp` 752-762 (that the boxes of cells hold their particles is assumed) | C106 |

## 4. Defects of the code

Each line is a proved negation with a concrete witness (theorem in brackets, namespace `Gandalf`) or follows
directly from a theorem that states exactly what the code does.  The sign `_partial` in a theorem name marks the part of
the claim that does hold.

* An empty leaf size makes the tree sizing loop run forever (`C02`).
* `PeriodicDistanceCorrection` uses uninitialised memory in boxes periodic in some dimensions only (`C08`).
* `NeighbourManager.h:463` reads past the end of the ghost list; unused by present callers (`C11`).
* Particles more than one box length outside stay outside (`C13`).
* Mirror ghosts keep the acceleration of the original until the first refresh (`C14`).
* Refreshing leaves ghosts their own flags: the ghost of a particle swallowed by a sink lives on, a swallowed ghost stays dead beside its living particle, until the next search (`C14_dead_not_copied_fails`).
* The search for ghosts uses the mean velocity of a cell and misses fast particles (`C15`).
* The scatter-gather ghost constructor keeps a reference into a vector that grows (`C16`).
* The limiter of the drift-kick-drift scheme breaks the alignment of steps (`C17`, `C19`).
* A requested step equal to a power of two is halved, a level-one request can be halved twice, and global
  timesteps double in the drift-kick-drift scheme (`C18`).
* The recorded step length is zero after the first level change and stale after a cut (`C52`).
* `smooth_accrete_frac = 0` makes the final check of accretion raise (`C20`).
* A new sink drops the thermal energy of its particle, `Nsinkfixed` can be exceeded, sinks of fixed radius can
  overlap (`C21`).
* Two evaluation rounds (`Npec = 2`) apply the leapfrog correction twice (`C23`) and spoil the Hermite scheme (`C46`).
* The potential of a particle at itself is counted twice in the energy printed (`C24`).
* A limiter cut keeps a flux the partner does not see; the mass moments `rdmdt` of both sides cancel (`C26`).
* The exact solver returns zero flux at a vacuum; in zero-mass-flux mode the face follows the sampled velocity instead of
  the contact (`C29`).
* Gaussian and quintic kernels: gravity, potential and zeta functions inconsistent with the density (`C32`).
* `FractionalBoxOverlap` gives zero when faces coincide (`C36`).
* `floatrand` exceeds one, `gaussrand` divides by zero or takes the logarithm of zero, seed zero gives
  a constant sequence (`C37`).
* `VerifyUniqueIds` accepts repeated ids (`C38`).
* Parameter files: a bare name is an assignment, values with a colon are lost, tabs are not trimmed, six digits are recorded (`C39`).
* An odd number of processes is accepted but has no valid calendar, and the exchange never ends (`C40`, `C41`).
* A particle on the upper face of the divided box is in no domain; a number of processes that is not a power of two leaves
  space without owner and loses particles; the bisection of load balancing can run forever (`C42`).
* A sink in no domain makes process 0 write past its send buffer (`C43`).
* `OctTree::GetMaxCellNumber` is too small, the receive of pruned octrees is truncated (`C44`).
* Smoothed jerk wrong in one dimension; star-gas forces not opposite in periodic boxes (`C45`).
* Hermite4TS is not exact for cubic motion; the second derivative of Hermite6TS is assigned, not summed (`C46`).
* A step longer than the output interval leaves output behind; a restart before the first snapshot uses the interval instead
  of the first time; a restart from column files starts numbering anew (`C47`).
* Crash windows around the restart file and the temporary snapshot (`C48`).
* Units: GJ, cgs pressure, luminosity, labels of force, B, Q, J, units named in a snapshot are ignored (`C49`).
* A failed smoothing length (`-1`) is accepted by the caller; density not renewed at the sink bound; the meshless scheme tests
  convergence with the old value, ignores the sink bound and computes `invomega` from the previous value; the test for potential
  minima uses the distance of the previous neighbour (`C50`).
* The SPH gradients used for bad matrices are not exact for linear fields (`C51`).
* Rates of the mm97 viscosity accumulate, and are lost with self-gravity (`C53`).
* Smoothed-gravity neighbours take the level of an unrelated particle (`C54`).
* Dust: the meshless schemes move particles with the momentum change not divided by the mass; the Laibe & Price law has zero stopping
  time for test particles; a dust particle at the position of its only gas neighbour heats it by 0/0; negative heating of MPI ghosts is
  dropped; the deadness of an unrelated particle decides whether neighbours are copied; without gas the loop never ends (`C57`).
* Gravity walk of gas cells: the opening criterion uses the distance between the centres of the cells, not from the particles; in a
  large leaf close to an accepted cell the relative error at a particle has no bound, however small the opening angle (`C58_cell_error_fails`).
* Star gravity: buffers for neighbours and direct particles hold `Ntot`, the walk wants room for a full leaf, and the retry only
  enlarges the buffer of cells: with a star near all particles and a leaf that is not full the loop does not end (`C09_star_retry_fails`).
* Oct-tree: the box of the particles is never stored in the root cell, so the first build starts from ±9.9e20 and cannot separate particles
  within 3.6e9 of the origin in 40 levels: with more than `2^ndim * Nleafmax` particles it always ends in the error "reached maximum
  oct-tree level" (after writing `firstCell[40]` behind the array) or behind the allocated cells (`C59_first_build_fails`).
* Oct-tree: the root is always divided, but one or two particles in 3D get only 4 or 8 cells: the ninth is written behind the array
  (`C59_too_few_cells`). With no particles `firstCell[0]` and `lastCell[0]` are not set but `StockTree` loops between them (not modelled).
* Oct-tree: the centre, size and opening distance of a leaf are only computed if its gravitating mass is positive. A leaf of dust with
  `dust_gravity` off keeps centre 0 and size 0, and searches pass over it (`C60_massless_leaf_skipped`).
* Oct-tree: the velocity box of a cell is never reset and starts at ±9.9e20, so the walk for signal velocities opens every cell
  (`C60_vbox_stays`); the active particles of inner cells are not counted.
* Oct-tree: `StockTree(partdata,false)`, used after pruned trees are received, first wipes the received leaves, so all cells of the
  tree end with no particles and no mass (`C60_restock_wipes`).
* `Adiabatic::Temperature` leaves out the mean molecular weight (`C61_adiabatic_temperature_fails`); the temperature of ionised gas is
  that of the neutral gas (`C61_ionised_temperature_fails`).
* `Polytropic` swaps its two exponents: the pressure uses `gamma_eos`, energy and sound speed `eta_eos` (`C61_polytropic_fails`).
* Barotropic gas gets the isothermal sound speed, too small by up to `sqrt(gamma)` (`C61_sound_barotropic_fails`).
* Diagnostics: the energy in an external potential is left out of `Etot` if there are no stars and no self-gravity
  (`C62_external_energy_fails`); with MPI the dead particles of other processes and stars outside of all domains are not counted
  (`C62_mpi_fails`).
* `VerticalPotential` adds the potential once, not twice, so the diagnostics count half of the energy (`C63_vertical_fails`); its default
  direction `kgrav = 1` is outside of the arrays in one dimension (`C63_kgrav_fails`).
* `mplummer_extpot` and `rplummer_extpot` are never read; the external Plummer sphere uses the parameters of the initial conditions
  (`C63_extpot_parameters_ignored`). `SilccPotential` adds nothing; the meshless schemes apply external potentials to stars only.
* Ewald sums: with x and z or y and z periodic, the limits of the wave numbers belong to the wrong directions, so that in elongated boxes
  waves of low wave number are left out (`C64_waves_fails`; `cf3 = 1.0/cr1` in line 229 and the transposed `es_nf*`).
* `CalculatePeriodicCorrection` line 654 adds the potential of the lowest corner instead of the interpolated `grEwald[0]`: the potential is
  constant in each cell of the table, zero in the first (`C64_potential_fails`).
* `CalculatePeriodicCorrection` wraps the open directions like the periodic ones (526-541): beyond half of the box the force is that of a
  body on the other side (`C64_wrap_open_fails`).
* `EFratio` below one makes the table smaller than half of the box, and it is read beyond its end (`C64_in_range_fails`); only values
  above 1.5 are refused.
* `AddBinaryStar` takes the angle of the velocity from `acos`, so the stars always move apart: for mean anomalies between π and 2π
  they should approach each other (`C65_incoming`, `C65_incoming_fails`).
* `HierarchicalSystemIc` and `BinaryAccretionIc` pass `psirot` for the unused `phase` and `0.0` for `psirot`: the third angle has no effect
  (`C65_psirot_fails`). In two dimensions `EulerAngleRotation` reads and writes one element beyond the vectors (not modelled).
* With `normalise` the lattices ignore the box beyond the first direction: particles are put outside of boxes whose shape does not match
  the numbers of sites, and nothing checks it (`C66_normalised_fails`).
* `AddHexagonalLattice` in three dimensions puts the last particle of every second row outside of the box, by half of its radius
  (`C66_hex_outside_fails`); with an odd number of rows a periodic lattice does not close (`C66_hex_odd_fails`).
* `CutSphere` scales positions without subtracting the centre of the box (`C66_cut_centre_fails`; its only caller has the centre 0), and never
  ends if more particles than wanted are at the centre (`C66_cut_terminates`). `Addr2Sphere` ignores the centre (`C66_r2_fails`).
* `AddAzimuthalDensityPerturbation` takes particles on the negative first axis to have the azimuth 0 (and on the negative second axis pi/2) and
  throws them to the other side of the axis of rotation (`C67_axis_fails`).
* `InterpolateVelocityField` accepts indices up to `Ngrid` although it reads the next node too: elements outside of the array are read in the last
  cell of the third direction and beyond (`C67_grid_fails`), and the other side of the grid in the last cell of the first (`C67_row_fails`).
* `CalculateMassInBox` uses no grid points across boxes more than 512 times longer than wide; the density is then never used (`C67_mass_fails`).
* `CheckInitialConditions` asks for a mirror on the lower side when it tests the upper side (line 216): with a single mirror it kills particles
  that may stay and keeps particles behind the mirror (`C68_mirror_fails`). Particles outside of a periodic box are printed but not refused,
  although the comment says so (`C68_box_fails`).
* `BossBodenheimerIc::Generate` divides the mass by the number of particles wanted, not by the number the lattice gives: the cloud is too light
  (`C69_boss_mass_fails`). Its `GetDensity` compares the square of the distance with the radius (`C69_boss_density_fails`).
* `TurbulentCoreIc::Generate` makes a grid that need not cover clouds whose kernels reach farther up than down (`C69_turb_grid_fails`).
* `EvrardCollapseIc::Generate` stretches distances without dividing by the radius: right only for radius 1 (`C69_evrard_fails`).
* `PlummerSphereIc::Generate` puts the whole mass inside of the radius where the sphere is cut, but uses the speeds and pressures of the complete
  sphere (`C69_plummer_truncated_fails`).
* `ExtrapolateCellProperties` (used with `ntreestockstep > 1`) moves the box of a cell with the velocity of its centre of mass and does not let it grow:
  once particles of a cell have moved apart searches do not find them, not even around their own position (`C70_extrapolate_fails`).
* A supernova overwrites the velocities of the gas it heats: the momentum and the kinetic energy the gas had are lost, and less energy
  than asked for is gained (`C71_energy_fails`, `C71_velocity_fails`). With no gas and less than one particle to inject nothing happens
  (`C71_empty_fails`).
* Only `v` and `u` of heated particles are changed, not `v0`, `u0` or `Qcons0`: SPH particles in the middle of their step and all particles
  of the finite-volume schemes lose the energy again (`C71_kept_fails`, `C71_mfv_fails`).
* `CreateNewParticle` does not set `dt`: in the place of a former ghost the new particle is kicked with the step of the ghost
  (`C71_new_fails`). Its identifier can be that of another particle (`C71_ids_fails`), and an array of four places does not grow
  (`C71_create_fails`).
* `SilccSupernovaDriver` reads its table beyond the end after the last explosion (`C71_silcc_fails`).
* The Runge-Kutta scheme (`sim = mfvrk`) takes the separation the other way round than the MUSCL scheme but adds the flux with the same sign:
  mass goes against the gas (`C72_rk_upstream_fails`). Both its states are moved on with the gradients of the neighbour
  (`C72_rk_gradient_fails`), and with zero mass flux the face moves twice (`C72_rk_zero_mass_fails`).
* The energy flux of viscosity is worked out with velocities relative to the face and not brought back to the lab: observers disagree on the
  heat (`C72_viscous_energy_fails`).
- **Free fall moves mass.** The states at a face are moved on by half a step of the acceleration, the velocity of the face is not
  (`MfvMuscl.cpp:155-162, 170-184`): particles that fall freely together through a uniform gas exchange mass (`C72_fall_fails`).
* The search for the gas around a star never ends when fewer particles than fit into a leaf are left and the star is among them
  (`C73_hang_fails`, see also `C09_star_retry_fails`).
* The gas a star sees as cells is not wrapped in periodic boxes, neither in the walk nor in the force, and gets no Ewald correction:
  stars near the edge are pulled the wrong way (`C73_periodic_fails`).
* Near particles pull a star whatever their type, distant cells count only the types that gravitate (`C73_types_fails`).
* The jerk of the Hermite schemes lacks the distant cells (`C73_jerk_fails`).
* Gravity heats the gas of the meshless schemes: over a step the internal energy grows by an eighth of the squared change of velocity
  (`C74_heat_fails`); the work of gravity is computed with each acceleration's own final velocity.
* Within a step the energy of a particle is advanced with the length of its whole step in place of the time since the start
  (`MfvIntegration.cpp:81-83`), so falling gas looks too hot to its neighbours (`C74_predict_fails`).
- **The energy of mass moved against gravity is lost.** `rdmdt` is the mass flux times the separation, and both change sign between
  the two particles of a pair; the code changes only the sign of one of them (`MfvMuscl.cpp:243-244`), so that the correction
  of the pair adds up to nothing (`C74_lift_fails`).
* Not formalised: external potentials are never applied to gas in the meshless schemes, and gravity is only computed there with
  self-gravity or stars.
* The table of opacities holds logarithms of the density, but `GetGamma`, `GetMuBar`, `GetEnergyFromPressure` and the implicit update
  look up the density itself (`OpacityTable.h:159, 174, 191`), so the equation of state is that of much denser gas (`C75_density_fails`).
* The search for the equilibrium temperature starts from the lowest temperature, and for gas that cools it goes down: if the equilibrium
  is higher than the next entry it reads before the table (`C75_cool_fails`); with a table that begins at the lowest temperature it always
  does (`C75_first_fails`). The implicit update reads beyond the table for gas at its last temperature (`C75_hot_fails`).
* Gas that is heated but has more energy than the entry nearest to its equilibrium keeps its energy (`C75_frozen_fails`).
* The implicit update interpolates between two entries the wrong way round (`C75_mirror_fails`).
* The ambient temperature is one variable for all threads, which set it for each particle (`C75_race_fails`).
* Not formalised: the constructor of the table writes beyond its arrays if the file has more lines than announced; with a balance of
  exactly 0 the search returns without the lower bound by the ambient temperature; `EnergyIntegration` of the meshless scheme is never called
  and would add mass to the momentum.
* Of two central stars only the second heats the disc (`RadiativeFB.cpp:159`, `C76_binary_fails`); announced as one of two, a single sink does
  not heat at all (`C76_alone_fails`).
* The temperature of the disc is given at one astronomical unit but used at one code unit (`C76_length_fails`); the luminosity of hydrogen
  burning is too large by the square of the unit of velocity (`C76_burning_fails`).
* Sources larger than twice their sink make the surroundings of all particles not a number (`C76_dark_fails`).
* With accretion of whole particles the rate of accretion is `nstep` times too large (`Sinks.cpp:609`, `C76_rate_fails`), and a sink that has run
  empty keeps its rate and shines for ever (`Sinks.cpp:494`, `C76_stale_fails`).
* Stars lighter than the first line of the table of stars have the photons of the heaviest (`C76_light_fails`); without the file `stellar.dat` in the
  working directory all stars read outside the table (`C76_table_fails`). The file announces 19 lines and has 20, so the last is never used.
* The tree of stars is never completed when stars are `√big_number` (3·10¹⁰ code units) or more apart, or when there are no stars any more
  (`NbodySystemTree.cpp:185, 178`, `C77_far_fails`).
* The inner time step of a sub-system is `√(m²/E)/v` instead of `(m²/E)/v` (`NbodySystemTree.cpp:388`): longer than the period of a close binary by any
  factor (`C77_crossing_fails`).
* A triple with a fourth star is recorded as a triple (`C77_kind_fails`); a system whose sister node is weak gets no perturbers however strong the other
  stars are (`NbodySystemTree.cpp:885`, `C77_perturbers_fails`).
* The clocks of the members of a sub-system (`tlast`) are set by `EndTimestep` only when the flag `end_timestep` is up, which is raised only for bodies
  outside systems (`Common/Simulation.cpp:1717, 1871, 2053`): from the second sub-step on, and in all later steps, members are advanced by the time since they
  last were on their own instead of the sub-step (`Nbody.cpp:623, 705`, `NbodyLeapfrogKDK.cpp:277, 360`, `C78_clock`, `C78_clock_fails`).
* After each sub-step the members are moved to where the system is at the end of its whole step (`Nbody.cpp:696`, `C78_ahead_fails`).
* The jerk of a perturber is copied into the wrong member and lost (`Nbody.cpp:550, 560`, `C78_perturber_fails`).
* The potential from outside is subtracted twice from the internal energy of a sub-system (`Nbody.cpp:648, 720-721`, `C78_energy_fails`).
* Several parameters are read under names that are never registered, so that no file can set them and they read as zero or the empty text
  (`C39_reads_fails`, `C39_unset_fails`): `Nsph` (`Ic/IsothermalSphereIc.cpp:62, 134, 233`, so the spheres have no particles) and `omega` (142);
  `SNfile_name`, `Minj`, `Rinj`, `R_therm_kin` (`Feedback/SupernovaDriver.cpp:175-178`, so the table of supernovae has no name); `sph`
  (`SM2013/SM2012SphSimulation.cpp:139`, so the scheme is always refused); `eos` (`Common/Dust.cpp:1190`, so drag heats isothermal gas); `forceinunit`,
  `forceoutunit` (see C49).
* Blast wave: every cold particle gets the energy 1e-6 instead of a specific energy, so that the background has more energy than the explosion when
  there are more than a million particles (`Ic/SedovBlastwaveIc.cpp:192`, `C79_sedov_cold_fails`); a particle at the centre loses its energy of motion
  (`:187`, `C79_sedov_centre_fails`).
* Shock tube: the discontinuity is at the origin wherever the box is; a box that does not contain it gives negative masses
  (`Ic/ShocktubeIc.cpp:121-149`, `C79_tube_fails`).
* Sound wave: for an adiabatic gas the internal energy is not disturbed (the factor is commented out), so that a part `(gamma-1)/(gamma+1)` of the wave
  goes the other way (`Ic/SoundwaveIc.cpp:124`, `C79_wave_fails`).
* Rayleigh-Taylor: the pressure rises with the height and jumps at the interface, so the layers are not in balance (`Ic/RayleighTaylorIc.cpp:128, 149`,
  `C79_rt_fails`).
* Kelvin-Helmholtz: the disturbance is centred at -0.25 and 0.25 wherever the box is (`Ic/KhiIc.cpp:157-159`, `C79_khi_fails`).
* Seren snapshots: particles of type icm come back as gas (`Common/SimulationIO.hpp:895-898, 1551-1554`, `C80_icm_fails`); a live boundary particle ends the
  run at the first snapshot (`:1120, 2135`, `C80_boundary`).
* Text snapshots read without restart: the time is not read, and the time of the simulation is divided by its unit at each read (`:678-686` and `2549`,
  `C80_time_fails`).
* Column snapshots: the time is divided by its unit twice (`:173` and `2549`), types and identifiers are lost, dead particles are alive again, sinks get a
  radius of `kernrange*h` (`C80_column_fails`); with several processes the stars are never written, but counted once per process (`:412-429`,
  `C80_mpi_column_fails`).
* Discs: the pressure support of the speed goes to the dust (all but the first dust particle) instead of the gas (`Ic/DiscIc.cpp:184`, `C81_gas_fails`), and is
  twice too large in two dimensions (`:186`, `C81_flat_fails`).
* Discs: the surface density for the power 2 is wrong by the fourth power of the inner radius (`Ic/DiscIc.cpp:115`, `C81_square_fails`); it is reduced by the
  share of dust even if there is no dust (`:113`, `C81_nodust_fails`); that of dust is too small by the same factor (`:202`, `C81_dust_density_fails`);
  `DustGasRatio` is the share of dust in the disc, not the ratio to gas (`:103-104`, `C81_ratio_fails`).
* Discs: the Hill radius and the sound speed of the equation of state do not contain the mass of the star (`Ic/DiscIc.cpp:248`,
  `Thermal/DiscLocallyIsothermal.cpp:45`, `C81_hill_fails`, `C81_eos_fails`); the radius of the planet is not converted to code units (`:242`).
* Rendering: the kernel is evaluated at the lower left corner of a pixel (`Common/Render.cpp:224-225`, `392-393`), not at its centre (`rgrid`, which is not used, and the
  display), so that images are shifted by half a pixel and a particle inside a pixel can be in none (`C82_shift_fails`, `C82_lost_fails`).
* Rendering: column images in three dimensions weigh with `h^-3` where the integral along the line has `h^-2` (`Common/Render.cpp:217`, `C82_column_fails`); pixels with a
  norm of at most `1e-10` are not normalised (`:245`, `C82_faint_fails`).
* Ionisation: the loops over particles start at 1 (`Thermal/MultipleSourceIonisation.cpp:606`, `:612`), so that particle 0 is never ionised, and what it absorbed in
  the first pass is kept for ever; particles behind it are wrong (`C83_first_fails`).
* Ionisation: the iteration stops as soon as one pass changes no flag, though the shares of several stars may still change; one more pass changes flags (`C83_premature_fails`).
* Ionisation: the internal energy is divided by `1/gamma` in place of `gamma-1` (`:72`, `:688`), so that the gas has `gamma(gamma-1)` times the temperature (`C83_energy_fails`).
* Ionisation, seen but not modelled: loops over the indices of the stars read and write `sphdata` beyond the gas (`:462`, `:638`, `:693-704`); the replacement in the list of
  particles that have a particle as neighbour compares the wrong distance (`:487`); the radiation pressure is computed and not used (`:706-725`).
* Signals from distant particles: in a coordinate in which two boxes overlap, the width is added to the gap (`Tree/Tree.cpp:952-965`), so that cells beside each other are taken to be too far
  away and are not opened (`C84_overlap_fails`).
* Signals from distant particles: the approach of two cells is taken along the gap between the boxes, but particles may approach along another direction; cells with such particles are
  not opened (`C84_direction_fails`).
* Signals from distant particles: in a periodic box the nearest image of a cell is not the nearest one of each of its particles; particles that approach from the other side are missed
  (`C84_periodic_fails`).
* Brute-force tree: in one dimension the quadrupole moments of the cells are never summed (`Tree/BruteForceTree.cpp:447-458`; the KD-tree does) and stay zero, also for the eigenvalue
  criterion, which reads them (`C85_quadrupole_fails`).
* Opening criteria: the tests of `open_cell_for_gravity` (`Headers/Tree.h:413-432`) are made with the distance between the centres of the bounding boxes (`Tree/Tree.cpp:650-657`, 695), so
  particles of the active cell on the near side get errors larger than the tolerance by any factor (`C86_eigenmac_fails`, `C86_gadget2_fails`).
* Radiation tree: a leaf all of whose particles are dead counts as empty though its box is not, exit pointers lead past it and the way through it is booked on the next cell (`C87_dead_particles_fails`);
  a zero component of the direction gives a negative path (`C87_zero_component_fails`); the level check `level < 0 && level > ltot` never fires, a negative level runs past the leaves (`C87_level_check_fails`);
  `OptimiseTree` reads `radcell[-1]` (`Tree/KDRadiationTree.cpp:780`, 811; `C87_reads_before_array_fails`).
* Ionisation balance: twenty turns bring a neutral, faintly lit cell to at most half (for `a = 10^-4` a tenth) of the fraction in balance, and the flag that notices is not used
  (`MonochromaticIonisationMonteCarlo.cpp:204-207`; `C88_balance_fails`); with `Nradlevels = 0` all levels lie below the leaves (`C88_no_levels_fails`).
* C90: in the binary accretion test the mass of a particle of the second fluid is divided by the number of particles of the first, and its smoothing length is computed before its mass is set and is 0 (`C90_binary_fails`).
* C90: the contact discontinuity puts the interface at 0.8 of the upper end of the box, not of its length; in a box from -2 to -1 the second fluid has negative masses (`C90_contact_fails`).
* C90: the two-dimensional shock computes the smoothing lengths of the thin gas with the density of the dense gas and does not subtract the corner of the box (`C90_shock2d_fails`).
* C90: a dust particle of the dusty box may be placed outside of the box (`C90_dustybox_fails`); the three-dimensional shear flow reads a lattice size that is never set (not modelled); one shear layer has net momentum (`C90_shear_fails`).
* C90: the masses of the Gaussian ring follow the Gaussian without the circumference, so its surface density is not the Gaussian (`C90_ring_density_fails`).
* C90: the stratified box takes its mass from the upper half only (`C90_silcc_fails`).
* C91: particles that share the coordinate of the division are sent to either side, so some are not in the half-open domain of their process (`C91_ties_fail`).
* C91: with fewer than half as many particles as processes an empty cell is divided and index -1 is used (`C91_few_particles_fails`).
* C92: gas with internal energy 0 gets a step 0, which stops the run (`C92_cold_fails`).
* C92: a particle at rest without sound speed and forces, for which any step would do, stops the run (`C92_rest_fails`).
* C92: the meshless MUSCL scheme chooses the step with the acceleration of the beginning of the step before (`C92_muscl_stale_fails`).
* C92: the fallback of the Hermite step ignores the multiplier of the user (`C92_aarseth_fallback_fails`).
* C92: where the first derivative of the acceleration of a star vanishes the Hermite step is the square of a time (in the units of the code) and jumps (`C92_aarseth_turn_fails`).
* C92: the energy a step begins with may be smaller than the one the step was chosen with, so it can become negative, with kick-drift-kick and drift-kick-drift (`C92_energy_fails`, `C92_energy_dkd_fails`).
* C93: with an edge in common `FractionalBoxOverlap` leaves out the factor of that dimension; a cell inside of the box can count four times (`C93_overlap_fails`).
* C93: a division at the edge of a cell passes for even although 80 percent of the work lie on one side (`C93_balance_fails`).
* C15: the search for ghosts behind periodic and mirror boundaries goes by the smoothing length of the particle copied only, so a particle with one more than 2.5 times as large misses neighbours in its kernel (`C15_gather_fails`).
* C94: the range of the search for ghosts of other processes depends on the smoothing lengths of the particles sent only; a particle with a smoothing length more than five times as large does not get the neighbours in its kernel (`C94_gather_fails`).
* C94: the search goes by the mean velocity of a cell and leaves out particles that fly into the box (`C94_motion_fails`).
* C95: a particle with no more mass inside than the first line of the table makes the code read the line before the table (`C95_centre_fails`).
* C95: `mcloud` is read as a mass without dimension: the gas has the mass `4 pi rsonic^3 rhofluid1 mcloud`, not `mcloud` (`C95_cloud_mass_fails`).
* C96: the smoothed density of a uniform medium is too large by a factor that depends on the kernel, 376/375 for the cubic spline in one dimension (`C96_smooth_fails`).
* C96: the box for initial conditions is periodic whatever the boundaries are; a particle pushed over a reflecting or open side appears at the other side of the box (`C96_walls_fail`).
* C97: the Runge-Kutta main loop never sets the accelerations of the gas back; those of all steps add up, after `t` steps at the same places they are `t` times too large (`C97_rk_accumulates`, `C97_rk_fails`).
* C97: in the Runge-Kutta scheme stars do not act on the gas when its self-gravity is off; in the MUSCL scheme they do (`C97_rk_stars_fails`).
* C98: the force loop begins with the potential of a particle at itself for imported particles too; a particle sent to `k` processes has it `k + 1` times (`C98_sph`, `C98_self_fails`).
* C98: the smoothing length is not sent but computed from the density; for particles held at the lower limit near sinks other processes use another one (`C98_bound_fails`).
* C98: the meshless schemes do not send `zeta`, which their gravity uses; the copy has what was in the slot before (`C98_mfv`, `C98_zeta_fails`).
* C99: in two dimensions the guess lacks a division by pi: the kernel takes pi times the intended number of neighbours (`C99_count_2d`, `C99_count_2d_fails`, `C99_2d_fails`).
* C99: the guess takes the range of the kernel to be 2; for the quintic kernel the number is 27/8 of the intended one (`C99_range`, `C99_quintic_fails`).
* C99: particles in a plane or on a line along the axes, or a single particle, start with smoothing length zero (`C99_flat_fails`).
* C99: the meshless schemes never set `Ngather` if smoothing lengths are given, but size buffers of the tree with it (`C99_ngather_fails`).
* C100: set-up of SPH does not set `gpot_hydro` back; with an error-controlled opening criterion it is the sum over two passes after set-up, exceeds `gpot` and breaks the assertion of radiative cooling (`C100_sph_hydro`, `C100_hydro_fails`).
* C100: the meshless schemes without gravity and stars leave the potential at `big_number` in the first snapshot and the sum of potential energies (`C100_mfv_big_fails`).
* C100: without self-gravity the geometric criterion stays in force whatever was chosen; nothing reads it then (`C100_criterion`).
* C101: a sink notes accreted copies by `i > Nhydro`; without periodic ghosts the first copy, at place `Nhydro`, is not noted: its mass is in the sink and its owner keeps it alive (`C101_noted`, `C101_first_fails`).
* C101: the same test notes periodic ghosts of the process itself; they would be sent to process 0, whoever holds them; an assertion stops this in debug builds (`C101_owner_periodic_fails`).
* C101: particles are given to sinks by each process for its own sinks only; a particle inside sinks of two processes is accreted by both, and the mass left to the last copy overwrites the others and what the owner's sink left (`C101_sink_twice_fails`, `C101_sink_own_fails`).
* C102: sinks find ghosts of periodic boundaries and accrete them, but their particles are never told: the mass of particles and sinks grows by what the ghosts lose (`C102_gain`, `C102_owner_kept`, `C102_swallowed_fails`), again after each new search for ghosts (`C102_again_fails`).
* C103: `min_synchronised_level` gives 1 where all levels meet (`C103_min_sync_fails`).
* C103: `nlast` and `tlast` use the factor of `level` for that of `_nlevelmax - level` (`C103_nlast`, `C103_nlast_fails`).
* C103: the default of 32 levels is one more than the arrays hold: the first test of level 0 and the first step read outside (`C103_default_fails`).
* C103: `compute_timestep_level` gives level 1 for steps between once and twice the longest (`C103_level_long_fails`). Nothing calls the class yet.
* C104: `ShocktubeSolution` samples the solution without looking at the vacuum test, as the fluxes do: for a ratio of 5/3 points in the vacuum left of `x0` get negative densities (`C104_vacuum_fails`).
* C105: `FindLeafCell` tests the tight boxes, so a star in a gap between leaves has no leaf and `AddRadiationPointSource` leaves it out as if it belonged to another process (`C105_gap_fails`, `C105_star_fails`); where leaves touch, another leaf than the particle's own may be found (`C105_other_leaf_fails`).

## 5. What is not modelled

* Rounding, overflow, NaN and infinities (except where a definition says so); performance, timing, the Python layer and SWIG.
* Initial conditions other than those of C65-C69, C79, C81 and C90; of `Radiation/` the methods `TreeRay` and the scattering of photons; the reading of turbulence and opacity tables. Cooling and heating by stars are covered by C75 and C76, supernovae by C71.
* `RestockTreeNodes`, `FindBinarySystems` of the tree of stars.
* The Saitoh & Makino forces (`SM2013`; unreachable: `sim = sm2012sph` is rejected by `Common/Parameters.cpp:704`), the time loop of the meshless Runge-Kutta scheme, the inner motion of sub-systems with the Hermite schemes.
* Of the oct-tree the extrapolation between stockings.
* The lite format of snapshots (it has no reader) and the headers written by several processes; the diagnostics files.
* OpenMP data races: loops are modelled sequentially, with per-thread buffers where the code has them (C26, C54).
