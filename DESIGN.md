# Formal model of EllipticForest – design

## Trusted base
* Lean 4.33.0 kernel; Mathlib as a source of kernel-checked lemmas.
* Axioms: every theorem depends on at most `propext`, `Classical.choice`, `Quot.sound`
  (checked with `#print axioms`). No own axioms, no `sorry`, no `native_decide`, no `bv_decide`.
* The hand translation of the C++ into Lean. Each definition cites file and lines in `/repo`.
* External software enters as *parameters* with stated contracts, never as axioms:
  BLAS `dgemv_`/`dgemm_` and LAPACK `dgesv_` (column-major contract), p4est (recursive
  quadtree search order, refinement recursion), MPI (FIFO point-to-point channel, collective
  replication), PETSc KSP solve (returns a solution of the assembled system when nonsingular).

  FISHPACK90 `hstcrt` (C57): for M, N ≥ 3 it replaces the load array by a solution of the staggered five-point Helmholtz
  equation with the given Dirichlet data when that has exactly one solution (its manual; the library is not in the repository);
  for M or N below 3 it returns an error code and leaves the array. Nothing else is assumed of it.

  The p4est contract used: the leaves are a quadtree whose leaf owners increase in Z order (`Forest.Sorted`), and
  `p4est_search_reorder` visits on a rank exactly the quadrants having a leaf of that rank, `p4est_search_all` all quadrants except
  those below one that belongs to a single other rank, with children in Z order.
  Refinement and balancing: `p4est_refine` is recursive and asks the callback for every leaf; `p4est_balance` gives the least
  refinement in which leaves sharing an edge or corner differ by at most one level (existence is proved, `Shape.balance_exists`).
  The MPI contract used: a collective on a rank range happens when all its ranks have arrived at the same collective; a
  broadcast of a node replaces it on all other ranks of the range by the root's (as one step; C39/C40 look inside it, C66 writes the programs out down to single `MPI_Bcast` calls and shows
  what the one-step view leaves out).
  What the C++ standard leaves undefined in broadcasts (the address of the first element of an empty vector, characters behind the
  end of a string) is a parameter `Dialect`: `strict` is the standard; another dialect says what an actual compiler does.
  A barrier (C65) is a collective of all ranks that hands out nothing.
  Communicators (C60, MPI 3.1 §6.4.2): `MPI_Comm_create_group` is collective over the group; called with a group without the
  caller it returns `MPI_COMM_NULL` at once; `MPI_Comm_set_name` on `MPI_COMM_NULL` is erroneous (outcome `.ub`, a parameter).
  Gathers (C62): the data of rank r is put at its displacement on every rank; counts may be zero.
  PETSc (C63): a create call makes a new object, a destroy call needs a live one and ignores a null handle.
  PETSc (C92-C94): local sizes left to PETSc are shared as evenly as possible, the first ranks get one more; sizes that do not add up are an
  error; what is inserted is kept until assembly, then an entry has what some rank inserted there last; own rows can be read after assembly.
  Vectors (C103) likewise; what is added is summed; inserting and adding must not be mixed before assembly; negative indices are passed over.
  Index sets (C105): `ISCreateGeneral` is collective on its communicator. The leaf solver calls it on all ranks (FiniteVolumeSolver.cpp:200-201);
  all claims about several ranks other than C105 (C65, C66, C68, C69, C73, C74, …) have a leaf solver without these calls, see C105 for what they do.
  Objects (C106): what is created stays until destroyed; assembled before used; not inserted and added without assembly (not checked by PETSc for
  sequential vectors, whose values are there at once, which is what C30 and all claims about leaf solves use).
  matplotlibcpp (C107): `scatter(x, y)` puts one mark at each `(x[k], y[k])`.
  `plot(x, y)` (C111) the points of two equally long vectors;
  (C110): `named_loglog`, `xlabel`, `ylabel`, `title` and `save` act on the figure made last.
  MPI names (C109): `MPI_Comm_set_name` keeps the first `MPI_MAX_OBJECT_NAME - 1` characters, `MPI_Comm_get_name` writes them and a null character.

## Global simplifications
* `double` is replaced by an arbitrary field `K` (an ordered field where the claim needs order). The statements of C37, C38 and C71 about merges, splits and passes are for any type of data and any callbacks, so they also hold of the program that rounds.
  Rounding, overflow and NaN are not modelled elsewhere: all numerical claims are claims about exact arithmetic, except those about coordinates in
  C95-C99, where every operation is rounded as IEEE 754 says (`roundDouble`; no fused operations, overflow excluded by C97).
* `size_t`/`int` are unbounded `Nat`/`Int`, except in `Model/Ints.lean`, which has the arrays of a mesh, the leaf solver and all
  messages once more with 32-bit `int`s (C78).
* An exception is the outcome `Res.throw e`; *undefined behaviour* (reading or writing outside a
  buffer, dereferencing null, `front()` of an empty vector, dangling pointer) is the outcome `Res.ub`.
* Memory allocation failure, timing output and console output other than log messages (C87) are not modelled.

## Layout
* `Verif/Basic.lean` – the outcome monad.
* `Verif/Model/*.lean` – executable model, function by function.
* `Verif/Spec/*.lean` – small independent specifications (plain functions, sums, Mathlib matrices).
* `Verif/Proofs/*.lean` – helper lemmas.
* `Verif/Props/*.lean` – the property theorems (one or more per property id) with non-vacuity examples.

## Per property
| id | what is modelled | how it is proved |
|----|------------------|------------------|
| C01 | `operator*` of Matrix over a column-major dgemv/dgemm contract | entrywise computation of the flat index arithmetic, all shapes |
| C02 | `solve` over the dgesv contract, incl. ignoring INFO | transposition algebra |
| C03 | `T()` | list entry lemma |
| C04 | `setBlock`, `getBlock` with literal bounds checks | loop invariant over the double loop |
| C05 | `getFromIndexSet` | entry lemma; literal guard analysis |
| C06 | `blockPermute` for vectors and matrices | block offsets and permutations |
| C07 | segments, `append`, `concatenate` | loop invariants |
| C08 | `blockDiagonalMatrix` | induction on the list |
| C09 | element access guards | false: `index == size` passes the guard; negation with witness, partial for `index > size` |
| C10 | arithmetic | entrywise; `*=` false (adds): negation + partial |
| C11 | rows/columns | `getCol` false for non-square: negation + partial |
| C12 | ranges | vector ranges false (returns indices): negation; matrix range proved |
| C13–C15, C52 | interpolation matrices built entry by entry through the literal accessor | row analysis, sums |
| C16, C17 | `merge4to1`, `upwards4to1`, `split1to4` over list matrices | refinement to functions, block algebra over a field |
| C18, C19 | the stages on trees, five-point leaf solver, functions or callbacks for load and Dirichlet data | induction over the tree with the invariant "the operator and flux of a subtree give the boundary derivatives of every solution of the finite volume problem of its rectangle"; uniqueness from the discrete maximum principle; interface values are the averages of adjacent cells of the global solution |
| C20, C21, C23, C24, C29 | the stages on adaptive trees (`Props/Stages.lean`) | invariants `Built`/`Upd`/`Slv` by induction over the tree; C21 by forgetting what a stage overwrites; C23, C24 by running three trees side by side |
| C22 | second build | negations by invariants of the coarsened sizes, partial theorems |
| C25 | cached leaf operators (`Props/Cache.lean`) | the cached build equals a build whose solver returns the cached matrix everywhere (induction over the tree); from this exact criteria: nothing changes iff all leaf operators equal the cached one; for constant coefficients without zeroth order term iff the mesh is uniform; negation for adaptive meshes and for a cache that outlives a refinement |
| C26 | root Robin solve | linear algebra |
| C27, C28 | adaptive trees, exactness of interpolation (`Proofs/Linear.lean`, `Props/Exact.lean`) | invariant "T maps the linear trace to its slope" up the tree, "the boundary values are the samples of the function" down the tree; on adaptive trees the nonsingularity of the interface systems is a hypothesis, on uniform trees it is C19 |
| C30–C33 | five-point solver, D2N, grid | case analysis over the nine cell classes; M-matrix argument |
| C34–C36 | node factory, paths, quadtree construction on every rank | structural induction over the forest |
| C37 | traversals over the per-rank node map | structural induction; false for the first traversal function after construction when it is not `traversePreOrder`: negation |
| C38 | every rank runs its own program; collectives are the only interaction (`Prog`, `Config`, `Step`) | induction over the forest; the step relation is confluent, so one good run makes all runs good; false when a rank inside a node's range has no leaf (deadlock): negation |
| C39, C40 | `send`/`receive`/`broadcast` of the composite types as programs over single MPI messages (`Sender`, `Receiver`, `Caster`); the link delivers per tag in order, a receive that meets a message of another type or length is undefined | induction over the value: the sender's stream is what the receiver consumes; undefined behaviour on empty vectors, short strings, freshly made nodes and leaf patches without operators is proved as negation; what the standard leaves undefined is a parameter (`Dialect`) |
| C41 | the refinement callback with the bilinear vertex map of p4est, recursive refinement of a uniform tree (`refinedShape`), balancing as a relation (`Shape.BalanceOf`), the mesh of the resulting forest | induction over the tree; the uniform tree of `max_level` is a balanced competitor, so the least balanced refinement is no deeper; false for leaves made by balancing: negation |
| C42, C43 | `setMeshFromQuadtree`, `iteratePatches`, `iterateCells`, `addMeshFunction` through the real traversals | induction over the leaves; four offsets and types per cell, and arrays that accumulate over calls, are negations |
| C44 | `locate_`, `hunt_`, the switch between them, `operator()` on points and vectors, `rawInterp` of the linear interpolant | loop invariants of the three searches: for a sorted table each ends in the same place, so the value does not depend on the history |
| C45 | the option map, `readINIFile` from the characters of the file, `checkValue`, the command line parser; `std::stod` is a parameter with the contract `StodContract` | files are rendered from a list of rows and the parser inverts the rendering (induction over rows); numerals by place value; negative integers and words are negations |
| C46 | `Timer`, the timers of the application; clock readings are inputs | induction over the history |
| C47 | `XMLNode`, `XMLTree` with pointers to children in a memory; an XML reader written independently | the reader recovers every tree of legal names without markup in its data, by induction over trees |
| C48 | the rectilinear, unstructured and parallel writers and `Mesh::toVTK`, with lifetimes of local nodes | the first file reads back as the document of the mesh; a second write is undefined behaviour (negation); `Mesh::toVTK` repeats by induction |
| C49 | norms | order lemmas |
| C50 | `DataCache`, the static pointer of `GenericSingleton` with object lifetimes | induction over the history; the default constructor and the destructor give negations |
| C51 | the in-place scalar operators with the scalar read from the vector while it changes | negation with a concrete vector; what happens for every entry, and the last entry as the part that holds |
| C53 | file names of the parallel writer, `snprintf` with its buffer | the header names the files of the ranks for short names without directory or format; negations for the others and for the declared type |
| C54 | adaptive trees, nonsingularity of interface systems (`Proofs/Singular.lean`, `Props/Singular.lean`) | negation: an explicit kernel vector with explicit cell values on the four quarters, checked by the kernel in exact rationals and carried to the model through `Built.globalN` (the operator of the refined quarter is that of its finite volume problem); the wrong run follows from LAPACK leaving the right-hand side in place. Uniform meshes: C19 |
| C55 | writer sessions: constructors, `buildMesh`, `addPointData`, `addCellData` with pointers to the caller's objects, followed at the write (`Model/VTK.lean`, `Props/VTKSession.lean`) | induction on the call sequence gives a fresh writer with the last mesh and all data, then C48; negation for rectilinear writers given two meshes (coordinates accumulate) |
| C56 | `std::to_string` for doubles (`%f`, six decimals, ties to even) and ints, data text and range of a vector (`Model/Number.lean`, `Props/Number.lean`) | an independent reader of decimal numbers and words; rounding error at most half a millionth, monotone, exact iff whole millionths; negation: small values become zero |
| C57 | `solve` of type FISHPACK90: splitting of the boundary data, transposed load, the call (`Model/Fishpack.lean`); `mapD2N` and `buildD2N` over either type | index lemmas for the transposition, then uniqueness of the discrete problem; negations for other coefficients and small leaves hold for every `hstcrt` meeting the contract |
| C58 | `buildD2N` with DTN_OPTIMIZE (`Model/D2NOptimize.lean`) | mirror images of solutions and the discrete Green identity give the block symmetries for constant coefficients on squares; on other rectangles the rows applied to `x` and `y` contradict them |
| C59 | the stages with an arbitrary leaf solver | induction over the tree with two solvers side by side |
| C60 | creation and naming of communicators in the quadtree constructor, one program per rank (`Model/Comm.lean`) | confluence of the interleavings, induction over the forest; negation for leaves on two ranks because naming `MPI_COMM_NULL` is erroneous; for an MPI that ignores it deadlock freedom, the map of C36 and the counts |
| C61 | destructor, move assignment and the rebuild of a mesh with counts of live nodes and communicators | induction over the list of forests; negation with the exact count |
| C62 | the `allgather`/`allgatherv` wrappers over MPI's contracts, with the access to element zero they make | list lemmas on the receive buffer; negation for empty contributions and too little room |
| C63 | variables, handles and `is_created`, objects inside PETSc (`Model/Petsc.lean`) | invariant "objects and variables with an object correspond one to one" over all programs; lost objects stay lost by induction over the rest of the program |
| C64 | all members of a `Vector` (`Model/VectorCopy.lean`) | exact criteria for when a copy is written like the original |
| C65 | one solver object per rank, the stages as programs with barriers, the example's `main` up to the two mesh vectors (`Model/ParallelHPS.lean`) | merges and splits on all ranks follow the serial ones with a state per rank (induction on the tree), so every stage does; then C18, C20, C21, C42; a program that cannot end well is an inductive invariant of runs; adaptive meshes with a dominating reaction term by C100 (`Props/AdaptiveRuns.lean`) |
| C66 | the programs of C65 with every broadcast of a node replaced by the calls of C40 on the node's communicator (`Model/Calls.lean`) | the calls of one broadcast replicate the root's node (C40), steps on different communicators commute, so a run of steps is a run of calls and all runs of calls end alike; what is broadcast is kept well-formed by every stage (invariant); with `strict` the first broadcast of a run is reached through the runs of C65 and is undefined; adaptive meshes with a dominating reaction term by C100 (`Props/AdaptiveRuns.lean`) |
| C67 | the solve stage with a boundary function (C26) on uniform meshes (C18); the boundary conditions written with the outward normal (`Spec/Robin.lean`) | boundary system nonsingular iff the problem with the sign of `b` changed on West and South is uniquely solvable; strong maximum principle (connected grid) gives uniqueness of well-posed problems; negations: the West boundary value is determined by the cell values, `u = x - 1` in the kernel |
| C68 | the time loop of `examples/thermal` on one rank (`Model/Thermal.lean`): both load callbacks, the boundary callback, the stages called on the tree of the build stage again and again; an implicit Euler step of the heat equation (`Spec/Thermal.lean`) | a load that reads the solution is a function of the leaf's grid because leaves have different grids, so C21 takes every pass back to the built tree; then C67; bounds, monotonicity, stability and decay to the steady state by comparing steps (maximum principle of C67) with constants and with a quadratic barrier; negation on the South side. On adaptive meshes (`Spec/HeatMesh.lean`, `Props/HeatMesh.lean`): values at the cell centres are those of a function, so a pass is a run with a sampled load; with steps short enough for the mesh C86 and C100 make it the one and only implicit Euler step of the composite discretisation |
| C69 | the stages of C18 over the real numbers; smooth functions and classical solutions (`Spec/Smooth.lean`), where leaves lie (`Spec/Placed.lean`) | truncation error of the flux balance by Taylor expansion with a derivative chain (`Proofs/Taylor.lean`): second order inside, order zero at boundary cells; a barrier whose flux balance absorbs both parts (exponential in x, plus a constant of size h² that pays for the boundary cells because its ghost values jump), comparison principle, C18, then back from the global grid to the cells of the leaves. The positive lower bound of beta follows from compactness. The error from below (`Proofs/Sharp.lean`, see C82) |
| C70 | the error report of `examples/elliptic-multiple` after the stages of C65, and the loop of `examples/patch-solver` (`Model/Report.lean`); `sqrt` a parameter with `IsSqrt` assumed; timers and files left out, `size_MB` is in C79 | `traversePostOrder` with a callback on leaves is a fold over the leaves of the rank (`leafVisit_post`); the sums are those of the list of cell areas and errors (`Spec/Report.lean`); areas of placed leaves add up to the area of the domain, so mean ≤ root mean square ≤ maximum by Cauchy–Schwarz; on several ranks the sums over ranks are the true values, hence each rank alone reports too little (negation for every problem); bounds from C69 and, for one patch, C30 with the error bound of C69 |
| C71 | a stage is a list of passes over the quadtree: merge, split, root callback, barrier (`Model/Pass.lean`), with any type of data and any callbacks; failure of a rank is an outcome (`Spec/Failure.lean`) | passes on ranks follow passes on one tree (induction over list and tree); if the serial pass fails at a leaf or family, some rank reaches that callback with the same data, and runs are confluent, so it is bound to fail; the leaves of the ranks in order are the leaves of the tree |
| C72 | `IdentityMatrix`, `DiagonalMatrix` as loops (`Model/SpecialMatrices.lean`) | loop invariants, then the product and solve lemmas of C01 and C02 with sums over one nonzero entry |
| C73 | `main` of `examples/elliptic-single` from the refinement to the files, numbers as text (`Model/Output.lean`); reading back: `Spec/Output.lean` | the run of C65 with the two vectors, the values at centres of C42, then the writers of C48 and C55 with the arrays of C42 and the numbers of C56; cells and values run in the same order because leaves of one place have one grid; adaptive meshes with a dominating reaction term by C100 (`Props/AdaptiveRuns.lean`) |
| C74 | `main` of `examples/thermal` with output (`Model/Output.lean`): passes with collected vectors, added functions, files, counter of outputs | induction over the passes: ranks hold the tree of the serial loop (C68), mesh arrays stay, outputs so far belong to the multiples of `n-vtk`; each output as in C73; negation for `n-vtk = 0` by an inductive invariant of runs; adaptive meshes with short steps from C68 (`Props/HeatOutput.lean`) |
| C75 | the loop of C68 over the reals; classical solutions of the heat equation: `Spec/HeatEquation.lean` | truncation errors by Taylor's formula (first order in time, second order inside, O(1) next to West and East, O(h) next to South and North), a barrier for mixed conditions (exponential along rows, quadratic along columns), and the comparison of implicit Euler steps of C68: the error stays below the barrier at every step, so nothing piles up |
| C76 | the stages of C18 with the boundary functions of C67 over the reals; outward derivatives on a side: `outward`, `OnSide` in `Spec/Smooth.lean` | traces of the numerical and the exact solution compared as Robin data: the trace of the exact solution has an O(h) error in its difference quotient at flux sides (`Proofs/FluxError.lean`); a barrier for any choice of sides with at least one value side (profile along one axis that grows away from the value side, plus h^2 jumps), the comparison principle of C67 with the sign the code uses, and the leaf step of C69. The stationary limit of the time loop (`C75_stationary_partial`) combines this with the decay of C68 |
| C77 | vectors in memory with addresses and lifetimes, the mesh with pointers, sequences of calls, both example programs once more with pointers: `Model/MeshPointers.lean` | what a file has to show is read off the list of calls (`Spec/MeshUse.lean`); an invariant ties addresses to declarations and functions, induction over the calls. Programs with pointers and by value take part in the same collectives and end alike (`Along`, induction over the program), so C73 and C74 hold with pointers |
| C78 | `int`s of 32 bits: overflow is undefined behaviour, a `size_t` that becomes an `int` is taken modulo 2^32, MPI sends as many elements as the count says: `Model/Ints.lean` | within stated sizes the programs do the same as with unbounded integers (induction over the cells of all leaves; refinement of each index computation; a transfer lemma from the communicating programs to their 32-bit versions), so C30, C32, C39, C40, C42 apply. Beyond them: negations with witnesses (2^27 cells per rank, leaf grids above 46340², vectors of 2^31 elements and of 2^32 + c, of which c arrive). Not covered: LAPACK, PETSc, p4est integers |
| C79 | `FiniteVolumePatch::dataSize` and the report of sizes of `examples/elliptic-multiple` after the stages of C65, with `size_t` unbounded: `Model/Memory.lean` | `traversePostOrder` is a fold over all nodes of the rank's tree (`sizeReport_ok`); the sizes of each operator and vector after build, upwards and solve follow by induction over the mesh (`serial_kept` in `Proofs/Kept.lean`), whatever the values; the sum over the mesh is bounded by leaves and depths and in closed form on uniform meshes (`Proofs/MemoryCount.lean`). On several ranks: negation for every problem, and what each rank does report |
| C80 | `examples/elliptic-multiple` from the loops over sizes and levels to the results file, on all ranks: the stages of C65 and reports of C70 and C79, the timers of C46 with an external clock, `%.16e`: `Model/Study.lean`; a reader of tables and of scientific notation and the finite doubles: `Spec/Study.lean` | the nested loops are one loop over the list of runs and each run ends on all ranks with the results of C70 and C79 (`run_runs`, `Runs.fold`); the table is read back by induction over rows and fields; the timers by induction over the solves; seventeen digits determine a double since two doubles near x differ by more than abs(x)/10^16 (`IsDouble.apart`), while the text is within half of that (`sciParts_near`). On several ranks: negation for all problems. Second order with FISHPACK90 and for the shipped problem follows since FISHPACK90 gives the values of the finite volume solver for the Helmholtz equation (`fish_same`, C59): `Props/FishConverge.lean`. Not covered: rounding of the reported numbers, adaptive rows, console, plots |
| C81 | constructor of the application (parsing), the options stored by `main` of elliptic-single, elliptic-multiple and thermal, and every read of an option in the library and in elliptic-multiple: `Model/Programs.lean` on top of `Model/Options.lean` | false: each `main` stores its own values after the command line was parsed; exact map after any command line by induction over the stored list, all reads of a study by induction over its runs, other options by the lemma of C45 on stored entries. `MPI_Init` and `PetscInitialize` may remove arguments before; the model begins with what they leave |
| C82 | the whole program patch-solver, with any elliptic problem, exact solution, load, rectangle and list of sizes: `Model/Sweep.lean`, loop by loop, finer than `Model/Report.lean` and proved equal to it | each loop of the program is split into its two vectors and reduced to C33 and C30, the reported error is read off C49; upper bound from the barrier of C69, lower bound (`Proofs/Sharp.lean`): at a boundary cell the flux balance of the exact solution is off by a quarter of `beta` times the second derivative across the side, and an error below a small multiple of h² in all cells could not produce that balance. The logarithm is a parameter, the real logarithm in the statement on the order |
| C83 | the stages of C18 | the flux balance is linear, so the difference of two solutions solves the problem with the differences as data; comparison principle (`FV.comparison`) for order and range, the barrier of C69 with a constant load for stability; leaves by `Placed.leaf_of_grid` |
| C84 | the stages of C18, the operators of the root patch after them | induction over the mesh: merged operators act on the boundary values as those of the global grid do (C18), so the root flux is the difference quotient of the global solution; then the second order error of C69 divided by half a cell width plus Taylor. First order only, uniformly up to the corners |
| C85 | as C84; on adaptive meshes the coarsened operators of unequal children | the flux balances of all cells telescope (`FV.divergence`); on adaptive meshes by induction over the tree (`outflow_leaves` in `Proofs/Gauss.lean`): coarsening takes means, means keep the sum over a side, and at each merge the fluxes of both sides of an interface cancel because the interface system is solved. There nonsingular interface systems are assumed (C19 proves them on uniform meshes, C54 shows that they can fail when beta varies) |
| C86 | build stage on adaptive trees, as C54 and C19 | the operator of every subtree is close to a diagonal one (`Near` in `Proofs/Reaction.lean`): leaves by a maximum principle with a constant supersolution, merging because the interface system is then diagonally dominant up to the second differences of the side data, coarsening because prolongation has norm 17/8 and shrinks second differences by 4. Induction over the tree. C28, C29 and C85 on adaptive meshes follow without their hypothesis |
| C87 | `Logger.hpp` and `printf` as a machine that reads the format, undefined where ISO C leaves it undefined (`Model/Logger.lean`); how one argument is written is a parameter | induction over the format. False for messages with a percent sign: a message without arguments is shown undoubled if all its percent signs are doubled, otherwise the behaviour is undefined |
| C88 | the three stages on adaptive trees, as C86 | affine version of `Near` (`NearA` in `Proofs/ReactionLoad.lean`): operator and flux together stay close to a diagonal operator with a constant error `F/L`, for boundary values that are not too small. Induction over the solved tree bounds the interface values, then the data of the children, then the leaves. Stability follows with linearity (C23) |
| C89 | the operators `<<` of vectors and matrices and `printf("%.4g")` on rational numbers (`Model/Print.lean`); a stream is its text and its precision | reading back with a reader that knows words, lines and exponents: rounding error of the digits for every exponent, zeros at the end, at most eleven characters for a double (exponents -324 to 308) so that the field of twelve starts with a blank; induction over entries and rows |
| C90 | the precision of the stream in the same model | false: negation with a witness, and the exact precision afterwards |
| C91 | the operator `<<` of the options, over the entries of the map in ascending order | induction over the entries; negations for texts with line ends and for the type of a value |
| C92 | the constructors of the distributed matrix and identity matrix with their members on every rank, PETSc's layout as contract | direct from the layout; negations for every constructor that keeps a placeholder |
| C93 | `setValues`, `getValues`, the constructor from a serial matrix; assembly as a relation that leaves open which rank's value wins | loops by induction; the relation determines the entry where the ranks agree; the shares of the ranks add up |
| C94 | the constructor that moves matrices to another communicator: ownership range, cut out, stack | induction over the ranks; negations for wide, tall and shared matrices and for the reported sizes |
| C95 | the coordinates in rounded arithmetic (`Model/Rounding.lean`): node factory and quadtree constructor with a rounding after every operation | simulation of the constructor; bounds as a function of dyadic place, for any rounding |
| C96 | the same with `roundDouble`, the rounding of IEEE 754 | rounding is nearest, hence monotone and fixes doubles; negation at 2^52; error bounds for the part |
| C97 | spacing, `point`, corner points as the code has them, rounded | error of one rounding, induction over levels, sums of errors; all operands bounded for overflow |
| C98 | the same | all numbers are multiples of one power of two with at most 53 digits |
| C99 | the same | negation with 49 cells; from C95, C97 and C98 |
| C100 | the same stages as C18; the composite system is `Composite` in `Spec/Composite.lean`, written from the equations and not from the stages; conditions with derivatives in `Spec/Mixed.lean` | induction over the solved tree: exists (edges read off the solve stage) and only (edges of any other solution have zero jump, so the merge system determines them); nonsingularity from C19 or C86; with mixed conditions the boundary system is nonsingular exactly if zero data leave only zero boundary values (`BoundaryRigid`); false with singular systems (C100_singular_wrong, problem of C54) |
| C101 | the same; moves in `Spec/Turn.lean` | single patches by algebra; solutions of `Composite` carried over by induction; nonsingularity carried over through `Rigid` (C100_singular_iff); uniqueness from C100 |
| C102 | the same | the same with mirrored or transposed edges, interpolation and means; false for outward derivatives (C102_normal_wrong) |
| C103 | `setValue`, `setValues` with both modes and the constructor from a serial vector; rounds of calls on any ranks; assembly as a relation that leaves open which rank's value wins | the lists kept by the ranks are what the calls gave, by induction on the calls; induction on the rounds; the ranks' sums add up to the sum over the calls |
| C104 | `FiniteVolumePatch::str`, `Node::str` and `<<` for nodes (`Model/Describe.lean`) | the lines of the text are found by walking over it; a reader that looks up a name, takes brackets off and reads digits gives every number back; equal texts are then equal numbers; induction on the list of nodes. False for the matrix `H`, which the text leaves out, and for bounds closer than the digits shown |
| C105 | the stages and the example program with the collective calls `FiniteVolumeSolver::solve` makes on all ranks (`Model/WorldCalls.lean`) | false of the code: every program makes a fixed number of these calls if it ends (`Prog.Makes`, composed along the program; induction on the forest for the traversals), a call happens on all ranks at once, so what is left of two ranks differs by a constant along every run; on one rank a simulation between the program with and without the calls; with one leaf on every rank the calls are the first thing of a merge and the last of a split, and runs without them are carried over (`Prog.Late`); for the order the operations of a merge are written down from the mesh (`Spec/WorldOrder.lean`), the traversal is shown to go through them one by one (`Prog.Begins`, with a frame for the map), and a run that ends on two ranks has taken the common ones off both lists together; with a quadrant on every rank (`QuadrantEach`) a merge makes all calls first (induction on the forest), and in a split all ranks come together to their calls (`Reaches`, induction on the forest, disjoint children side by side); with the operator cache a rank comes to its first leaf with the tree the build began with and makes no calls after it (`searchPost_makesOnce`, `searchPost_once`); these calls come before any family of the rank (`searchPost_front`), so a build that ends without the calls ends with them on any partition |
| C106 | the PETSc calls of `FiniteVolumeSolver::solve` in order, and PETSc's rules as a partial transition function on objects, variables and assembly states (`Model/PetscUse.lean`) | false of the code: the calls of the loops change no object (induction on the list), the calls before and after them are run through; the count of objects grows by two per solve (induction on the solves); with the rule about modes the first cell is refused |
| C107 | `matshow` of `PlotUtils.hpp` with the marks as result (`Model/Plot.lean`); `scatter` is a contract | false of the code: loop invariant gives the list of marks; a picture is any strictly monotone placement of columns and rows (`Shows`), so two marks in one column and none in one row contradict it; right exactly for symmetric positions |
| C108 | `PatchGrid::str` (`Model/Describe.lean`) | a reader of words, brackets and numbers (`readGrid` in `Spec/Describe.lean`) gives every number back; equal texts are then equal counts and near bounds; false for positive spacings |
| C109 | names given by `communicatorSubsetRange`, set and get with the buffer of 255 characters (`Model/CommName.lean`) | a reader of ranges in braces gives the chain of calls back while everything is kept (induction on the calls); false beyond: the name of a chain grows until it is cut off, then stays (induction on the depth), or leaves the buffer |
| C110 | the points, curves and figures of `examples/elliptic-multiple`, with the runs, skipped runs and timers of C80 (`Model/StudyPlots.lean`); the curves over the list of runs (`Spec/StudyPlots.lean`) | two nested loops on all ranks (induction on levels and sizes); false of the error axis: one changed value of the function to compare with makes two errors of the first leaf differ, and then the mean is below the maximum; undefined behaviour from the seventh size on |
| C111 | `PatchGrid::plot` for finite volume grids with the calls it makes (`Model/GridPlot.lean`); centres of cells and boundary faces (`Spec/GridPlot.lean`) | the loops fill their vectors (induction); marks are exactly the centres, without repetition, since centres are strictly ordered and inside |

Properties that are false of the code are kept in full in `properties.jsonl`; the file proves the
negation with a concrete witness and, separately, the part that does hold under a name ending in `_partial`.

## Tests against wrong programs
`seeded/LOG.jsonl` has one record per edit of the model in a scratch copy. `lemmas_with_errors` are the declarations whose
proof no longer checks, `property_theorems_failed` the property theorems that are or use one of them (by the dependency graph
of the unedited build). A failing proof shows that the theorem notices the edit; it does not by itself prove the negation.
Modules after a failing one are not compiled in the first round; where an expected property had not failed by then, the failing
proofs were replaced by `sorry` in the scratch copy and the build continued (`rounds`). A `note` says where the expectation
written before a run turned out to be wrong.
