{"id": "C01", "title": "Matrix products are the mathematical products for every shape", "statement": "For every pair of matrices whose inner dimensions agree, `A*B` returns a matrix with A's row count and B's column count whose (i,j) entry is the sum over k of A(i,k)B(k,j); `A*x` likewise returns the vector with entries sum_j A(i,j)x(j). When the inner dimensions differ the call throws and returns nothing.", "quantifier": "all matrices of all (rectangular) shapes with nonzero dimensions, all vectors, all entries of a field", "why_tests_cant": "the implementation hands row-major data to column-major BLAS with swapped leading dimensions and transposes; a handful of (mostly square or symmetric) samples cannot exclude a transposition or leading-dimension slip for some rectangular shape", "anchors": ["src/Matrix.hpp: operator*(Matrix,Vector)", "src/Matrix.hpp: operator*(Matrix,Matrix)", "src/Matrix.hpp: T"]}
{"id": "C02", "title": "solve() returns the solution of the linear system", "statement": "For every square nonsingular A and every conforming right-hand side, `solve(A,b)` returns x with A*x = b and `solve(A,B)` returns X of the shape of B with A*X = B, and leaves A and the right-hand side unchanged; non-square or non-conforming input throws.", "quantifier": "all nonsingular square matrices of every order at least one, all right-hand sides with any number of columns", "why_tests_cant": "row-major/column-major mix-ups are invisible for symmetric matrices or single right-hand sides and any sampled set of shapes", "anchors": ["src/Matrix.hpp: solve(Matrix,Vector)", "src/Matrix.hpp: solve(Matrix,Matrix)"]}
{"id": "C03", "title": "Transposition", "statement": "`A.T()` has swapped dimensions and entry (i,j) equal to A(j,i); transposing twice gives back A exactly; (A*B).T() = B.T()*A.T().", "quantifier": "all matrices of all shapes", "why_tests_cant": "ranges over all shapes and entries", "anchors": ["src/Matrix.hpp: T", "src/Matrix.hpp: operator*(Matrix,Matrix)"]}
{"id": "C04", "title": "Block read/write: round trip and frame", "statement": "`A.setBlock(i,j,B)` succeeds exactly when the block fits inside A; afterwards `A.getBlock(i,j,B.nRows(),B.nCols())` equals B and every entry of A outside the block is unchanged. A block that does not fit makes both calls throw and leaves A unchanged.", "quantifier": "all matrices, all blocks, all offsets", "why_tests_cant": "the frame condition speaks about every untouched entry for every offset and size", "anchors": ["src/Matrix.hpp: setBlock", "src/Matrix.hpp: getBlock", "src/Matrix.hpp: operator()"]}
{"id": "C05", "title": "Index-set extraction", "statement": "For index sets whose members are valid indices and which are no longer than the dimension, `A.getFromIndexSet(I,J)` returns exactly the submatrix A(I[i],J[j]) and `v.getFromIndexSet(I)` exactly v[I[i]]; for any index strictly larger than the size, or negative, the vector version throws.", "quantifier": "all matrices, vectors and index sets (any order, repetitions allowed)", "why_tests_cant": "all index sets", "anchors": ["src/Matrix.hpp: getFromIndexSet", "src/Vector.hpp: getFromIndexSet", "src/Vector.hpp: operator()(Vector<int>)"]}
{"id": "C06", "title": "Block permutation is the permutation it is asked to be", "statement": "For a permutation pi of the blocks described by the size vector S, `v.blockPermute(pi,S)` returns the concatenation of the blocks of v in the order pi[0],pi[1],...; no entry is lost or duplicated, permuting with the inverse permutation (and permuted sizes) restores v. For a matrix with row blocks permuted by pi and column blocks by sigma, block (i,j) of the result is block (pi[i], sigma[j]); permuting a square matrix in rows and columns commutes with permuting vectors: (P A P^T)(P x) = P (A x).", "quantifier": "all vectors and square matrices, all block-size vectors, all permutations", "why_tests_cant": "the property quantifies over all block sizes and permutations; tests use one 3-block example", "anchors": ["src/Vector.hpp: blockPermute", "src/Matrix.hpp: blockPermute"]}
{"id": "C07", "title": "Segments and concatenation", "statement": "`v.setSegment(k,w)` followed by `v.getSegment(k,w.size())` returns w, all other entries are unchanged, segments that do not fit throw with v unchanged; `concatenate` of any list of vectors has the summed size, and each input is recovered by getSegment at its offset; `append` is concatenation in place.", "quantifier": "all vectors, offsets, lists of vectors", "why_tests_cant": "quantifies over all sizes/offsets", "anchors": ["src/Vector.hpp: getSegment", "src/Vector.hpp: setSegment", "src/Vector.hpp: append", "src/Vector.hpp: concatenate"]}
{"id": "C08", "title": "Block diagonal assembly acts blockwise", "statement": "`blockDiagonalMatrix({A1..Ak})` has the summed dimensions, contains each Ai on the diagonal and zero elsewhere, so that its product with a concatenated vector is the concatenation of the products Ai*xi.", "quantifier": "all lists of (rectangular) matrices", "why_tests_cant": "all list lengths and shapes", "anchors": ["src/Matrix.hpp: blockDiagonalMatrix"]}
{"id": "C09", "title": "Out-of-range element access is refused", "statement": "Reading or writing a vector element or matrix entry at an index that is not smaller than the corresponding size throws and never touches memory outside the stored data, and never returns another entry.", "quantifier": "all vectors, matrices and indices", "why_tests_cant": "the only failing index is the single off-by-one value for each size, which samples miss", "anchors": ["src/Vector.hpp: getEntry", "src/Vector.hpp: operator[]", "src/Vector.hpp: operator()", "src/Matrix.hpp: operator()", "src/Matrix.hpp: flattenIndex_"]}
{"id": "C10", "title": "Vector and matrix arithmetic is entrywise and shape-checked", "statement": "Sum, difference, negation, scalar multiple (in place and out of place) act entrywise and throw on shape mismatch without changing operands; consequently + is commutative and associative, A-A is zero and scalar multiplication distributes; `A *= c` multiplies every entry by c.", "quantifier": "all vectors and matrices, all scalars", "why_tests_cant": "algebraic laws over all inputs", "anchors": ["src/Vector.hpp: operator+=", "src/Vector.hpp: operator-=", "src/Vector.hpp: operator*=", "src/Vector.hpp: operator+", "src/Vector.hpp: operator-", "src/Matrix.hpp: operator+=", "src/Matrix.hpp: operator-=", "src/Matrix.hpp: operator*=", "src/Matrix.hpp: operator-"]}
{"id": "C11", "title": "Row and column access", "statement": "`getRow(i)` returns the i-th row and `getCol(j)` the j-th column (with nRows entries) of any matrix; `setRow`/`setColumn` followed by the matching getter returns what was written and leaves every other entry unchanged.", "quantifier": "all matrices of all shapes, all valid row/column numbers", "why_tests_cant": "square test matrices hide a row/column-count mix-up", "anchors": ["src/Matrix.hpp: getRow", "src/Matrix.hpp: getCol", "src/Matrix.hpp: setRow", "src/Matrix.hpp: setColumn"]}
{"id": "C12", "title": "Range access returns the entries of the range", "statement": "`v.getRange(a,b)` and `v(a,b)` return the entries v[a..b] and `A(a,b,c,d)` the submatrix of rows a..b and columns c..d (both ends included). `vectorRange(a,b)`, which builds the index sets for such selections, holds exactly the integers a, a+1, ..., b.", "quantifier": "all vectors/matrices, all ranges inside them", "why_tests_cant": "for a vector holding 0,1,2,... returning the index instead of the entry is indistinguishable", "anchors": ["src/Vector.hpp: getRange", "src/Vector.hpp: operator()(int,int)", "src/Vector.hpp: vectorRange", "src/Matrix.hpp: operator()(a,b,c,d)"]}
{"id": "C13", "title": "Fine-to-coarse averaging conserves totals", "statement": "Multiplying a fine side vector by `InterpolationMatrixFine2Coarse<double>(n)` yields the n pairwise averages: twice the sum of the coarse vector equals the sum of the fine vector, constants are preserved and linear samples at fine cell centres map to linear samples at coarse cell centres.", "quantifier": "all n, all fine vectors", "why_tests_cant": "quantifies over all sizes and vectors", "anchors": ["src/SpecialMatrices.hpp: InterpolationMatrixFine2Coarse"]}
{"id": "C14", "title": "Coarse-to-fine interpolation is exact for linear data", "statement": "For every even number of fine cells 2m with m>=3, `InterpolationMatrixCoarse2Fine<double>(2m)` maps samples of any linear function at coarse cell centres to its samples at fine cell centres (in particular every row sums to one); the first and last rows are exact for quadratics too.", "quantifier": "all sizes, all linear functions", "why_tests_cant": "sizes are unbounded and the corrupted sizes are isolated", "anchors": ["src/SpecialMatrices.hpp: InterpolationMatrixCoarse2Fine"]}
{"id": "C15", "title": "Coarsening after interpolation", "statement": "Coarsening an interpolated side vector gives back the original for every linear coarse sample vector, for every size of at least three cells.", "quantifier": "all sizes m>=3, all linear samples", "why_tests_cant": "all sizes", "anchors": ["src/SpecialMatrices.hpp: InterpolationMatrixCoarse2Fine, InterpolationMatrixFine2Coarse"]}
{"id": "C16", "title": "Merging four patches glues them with continuous value and flux", "statement": "After the build and upwards stages have merged four sibling patches, for every Dirichlet vector g on the parent boundary: there are interior interface values such that, giving each child its part of g and of the interface values, the fluxes T*g+h of the two children sharing any interface agree on it, and the fluxes of the children on the parent boundary are exactly the parent's T*g+h in the parent's West-East-South-North ordering.", "quantifier": "all side lengths, all four child operators and inhomogeneous fluxes with nonsingular interface system, all g", "why_tests_cant": "the sign and index conventions of 4x4 blocks are consistent on symmetric data even when wrong; must hold for arbitrary operators", "anchors": ["src/HPSAlgorithm.hpp: merge4to1", "src/HPSAlgorithm.hpp: createIndexSets_", "src/HPSAlgorithm.hpp: createMatrixBlocks_", "src/HPSAlgorithm.hpp: mergeX_", "src/HPSAlgorithm.hpp: mergeS_", "src/HPSAlgorithm.hpp: mergeT_", "src/HPSAlgorithm.hpp: reorderOperators_", "src/HPSAlgorithm.hpp: upwards4to1", "src/HPSAlgorithm.hpp: mergeW_", "src/HPSAlgorithm.hpp: mergeH_", "src/HPSAlgorithm.hpp: reorderOperatorsUpwards_"]}
{"id": "C17", "title": "Splitting gives siblings identical interface values and keeps the parent boundary", "statement": "After the solve stage has processed a parent, the two siblings sharing an interface hold identical Dirichlet values on it, each exterior side of a child holds the parent's values on that half side, and those interface values make the fluxes continuous.", "quantifier": "all side lengths, operators, parent boundary vectors", "why_tests_cant": "all inputs; an exchanged pair of segments is invisible on symmetric data", "anchors": ["src/HPSAlgorithm.hpp: split1to4", "src/HPSAlgorithm.hpp: applyS_"]}
{"id": "C18", "title": "On a uniform mesh the HPS solution is the global finite volume solution", "statement": "On every uniformly refined mesh, after build, upwards and solve, the values stored on the leaves satisfy the five-point finite volume equation of one global grid at every cell, including cells on both sides of patch interfaces and cells at the physical boundary; the result does not depend on how the grid was cut into patches.", "quantifier": "all refinement levels, patch sizes, coefficient functions, right-hand sides, Dirichlet data", "why_tests_cant": "needs an induction over the refinement depth and equality at all cells", "anchors": ["src/HPSAlgorithm.hpp: buildStage", "src/HPSAlgorithm.hpp: upwardsStage", "src/HPSAlgorithm.hpp: solveStage", "src/HPSAlgorithm.hpp: merge4to1", "src/HPSAlgorithm.hpp: upwards4to1", "src/HPSAlgorithm.hpp: split1to4", "src/Patches/FiniteVolume/FiniteVolumeSolver.cpp: solve", "src/Patches/FiniteVolume/FiniteVolumeSolver.cpp: mapD2N", "src/Patches/FiniteVolume/FiniteVolumeSolver.cpp: buildD2N"]}
{"id": "C19", "title": "The build stage never meets a singular interface system for an elliptic problem", "statement": "For positive beta, alpha nonzero and lambda/alpha non-positive, on a uniformly refined mesh of any depth, every linear system factored by the build and upwards stages is nonsingular, so that no solve result is meaningless.", "quantifier": "all levels, patch sizes, admissible coefficient functions", "why_tests_cant": "singularity is a measure-zero event that no sampling can exclude", "anchors": ["src/HPSAlgorithm.hpp: mergeX_", "src/HPSAlgorithm.hpp: mergeS_", "src/HPSAlgorithm.hpp: mergeW_", "src/Patches/FiniteVolume/FiniteVolumeSolver.cpp: solve"]}
{"id": "C20", "title": "Side lengths always match at a merge", "statement": "On every quadtree, however adaptively refined, the coarsening step makes the four siblings' operators and flux vectors the same size, so buildStage, upwardsStage and solveStage never abort with a size mismatch and every matrix/vector access they perform is inside bounds.", "quantifier": "all quadtrees of any depth and shape, all leaf sizes supported by the interpolation operators", "why_tests_cant": "quantifies over all tree shapes", "anchors": ["src/HPSAlgorithm.hpp: tagPatchesForCoarsening_", "src/HPSAlgorithm.hpp: coarsen_", "src/HPSAlgorithm.hpp: createIndexSets_", "src/HPSAlgorithm.hpp: coarsenUpwards_", "src/HPSAlgorithm.hpp: uncoarsen_", "src/HPSAlgorithm.hpp: applyS_", "src/Patches/FiniteVolume/FiniteVolumePatch.cpp: size"]}
{"id": "C21", "title": "Re-running upwards and solve depends only on the newest data", "statement": "After one build, running upwardsStage and solveStage again with new load and boundary data gives exactly the result of running them for the first time with that data on a freshly built tree, any number of times.", "quantifier": "all trees, all sequences of load/boundary data", "why_tests_cant": "ranges over all histories of solves", "anchors": ["src/HPSAlgorithm.hpp: upwardsStage", "src/HPSAlgorithm.hpp: solveStage", "src/HPSAlgorithm.hpp: coarsenUpwards_", "src/HPSAlgorithm.hpp: uncoarsen_"]}
{"id": "C22", "title": "Re-running the build stage is harmless", "statement": "Calling buildStage a second time on the same mesh leaves the same operators as calling it once and later solves are unaffected.", "quantifier": "all quadtrees", "why_tests_cant": "only fails on trees with mixed levels", "anchors": ["src/HPSAlgorithm.hpp: buildStage", "src/HPSAlgorithm.hpp: coarsen_", "src/HPSAlgorithm.hpp: tagPatchesForCoarsening_"]}
{"id": "C23", "title": "The computed solution is linear in the data", "statement": "With fixed mesh and operators, the solution for load and boundary data that is a linear combination is the same linear combination of the solutions.", "quantifier": "all trees, data, scalars", "why_tests_cant": "all data, all trees", "anchors": ["src/HPSAlgorithm.hpp: upwardsStage", "src/HPSAlgorithm.hpp: solveStage"]}
{"id": "C24", "title": "The homogeneous-rhs option is a pure optimisation", "statement": "Solving with option homogeneous-rhs set gives the same leaf solutions as solving with it unset and a zero load function.", "quantifier": "all trees and boundary data", "why_tests_cant": "all trees", "anchors": ["src/HPSAlgorithm.hpp: upwards4to1", "src/HPSAlgorithm.hpp: applyS_", "src/HPSAlgorithm.hpp: upwardsStage", "src/HPSAlgorithm.hpp: leafSolve"]}
{"id": "C25", "title": "The cache-operators option is a pure optimisation", "statement": "Building with option cache-operators set gives the same operators as building without it.", "quantifier": "all trees and leaf operators", "why_tests_cant": "true on uniform constant-coefficient meshes only, which is what tests use", "anchors": ["src/HPSAlgorithm.hpp: buildStage", "src/DataCache.hpp: DataCache"]}
{"id": "C26", "title": "The root boundary condition is satisfied", "statement": "For boundary callbacks returning a, b and r at the boundary cells, after solveStage the root Dirichlet data g and the root flux q = T g + h satisfy a*g + b*q = r at every boundary cell, whenever the boundary system is nonsingular; with a=1,b=0 the Dirichlet data are r.", "quantifier": "all root operators, all callbacks", "why_tests_cant": "all callbacks", "anchors": ["src/HPSAlgorithm.hpp: solveStage"]}
{"id": "C27", "title": "Constants are exact on every adaptive mesh", "statement": "For the Laplace equation (lambda=0, zero load) with constant Dirichlet data c the computed solution is c in every cell of every leaf, on every adaptively refined quadtree.", "quantifier": "all quadtrees, patch sizes, constants", "why_tests_cant": "all tree shapes", "anchors": ["src/HPSAlgorithm.hpp: buildStage", "src/HPSAlgorithm.hpp: solveStage", "src/HPSAlgorithm.hpp: coarsen_", "src/HPSAlgorithm.hpp: uncoarsen_", "src/SpecialMatrices.hpp: InterpolationMatrixCoarse2Fine", "src/Patches/FiniteVolume/FiniteVolumeSolver.cpp: solve"]}
{"id": "C28", "title": "Linear functions are exact on every adaptive mesh", "statement": "For the Laplace equation with constant coefficients and Dirichlet data of a linear function a+bx+cy sampled at boundary cell centres, the computed solution is that linear function at every cell centre of every leaf, on every adaptively refined quadtree.", "quantifier": "all quadtrees, patch sizes, linear functions", "why_tests_cant": "all tree shapes; also pins down orientation (x versus y, west versus east) of every operator", "anchors": ["src/HPSAlgorithm.hpp: buildStage", "src/HPSAlgorithm.hpp: solveStage", "src/HPSAlgorithm.hpp: coarsen_", "src/HPSAlgorithm.hpp: uncoarsen_", "src/Patches/FiniteVolume/FiniteVolumeSolver.cpp: solve", "src/Patches/FiniteVolume/FiniteVolumeSolver.cpp: mapD2N"]}
{"id": "C29", "title": "Flux is conserved across coarse-fine interfaces", "statement": "Where a refined family borders a coarser sibling, the flux of the coarse patch on each interface cell equals the average of the fine fluxes over the fine cells it covers (so the total flux leaving one patch enters the other), for every right-hand side and boundary data.", "quantifier": "all adaptive trees, all data", "why_tests_cant": "all tree shapes and data", "anchors": ["src/HPSAlgorithm.hpp: coarsen_", "src/HPSAlgorithm.hpp: coarsenUpwards_", "src/HPSAlgorithm.hpp: uncoarsen_", "src/HPSAlgorithm.hpp: mergeX_", "src/HPSAlgorithm.hpp: mergeW_"]}
{"id": "C30", "title": "The leaf solver solves the discretised PDE in every cell", "statement": "For every leaf grid, `FiniteVolumeSolver::solve(grid,g,f)` with the five-point option returns cell values satisfying, at every cell, the finite-volume equation alpha*div(beta grad u)+lambda*u=f with the Dirichlet values g imposed halfway between the boundary cell and its mirror ghost cell.", "quantifier": "all grid sizes, spacings, coefficient functions, g, f with nonsingular system", "why_tests_cant": "nine cell cases with different index arithmetic; must hold for all sizes and data", "anchors": ["src/Patches/FiniteVolume/FiniteVolumeSolver.cpp: solve", "src/Patches/FiniteVolume/FiniteVolumeSolver.cpp: gridIndex2MatrixIndex"]}
{"id": "C31", "title": "The discrete Dirichlet problem on a leaf is uniquely solvable and obeys the maximum principle", "statement": "For positive beta, alpha nonzero and lambda/alpha non-positive the leaf system has exactly one solution; for zero load and lambda=0 every cell value lies between the smallest and largest boundary value.", "quantifier": "all grid sizes, coefficients, data", "why_tests_cant": "universal bound over all data", "anchors": ["src/Patches/FiniteVolume/FiniteVolumeSolver.cpp: solve"]}
{"id": "C32", "title": "The leaf D2N operator represents the leaf solver", "statement": "For every boundary vector g and load f, the flux vector obtained by solving on the leaf and applying mapD2N equals buildD2N(grid)*g + particularNeumannData(grid,f).", "quantifier": "all grids, g, f", "why_tests_cant": "affine-linearity over all data", "anchors": ["src/Patches/FiniteVolume/FiniteVolumeSolver.cpp: buildD2N", "src/Patches/FiniteVolume/FiniteVolumeSolver.cpp: particularNeumannData", "src/Patches/FiniteVolume/FiniteVolumeSolver.cpp: mapD2N", "src/Patches/FiniteVolume/FiniteVolumeSolver.cpp: solve"]}
{"id": "C33", "title": "Grid numbering is a bijection", "statement": "The cell numbering used for load, solution and matrix rows maps the cells of an nx-by-ny grid one-to-one onto 0..nx*ny-1, and cell (i,j) has centre (xlower+(i+1/2)dx, ylower+(j+1/2)dy) strictly inside the domain.", "quantifier": "all grid sizes and domains", "why_tests_cant": "all sizes", "anchors": ["src/Patches/FiniteVolume/FiniteVolumeSolver.cpp: gridIndex2MatrixIndex", "src/Patches/FiniteVolume/FiniteVolumeGrid.cpp: point"]}
{"id": "C34", "title": "Children tile their parent; parent creation inverts child creation", "statement": "The four child patches created for a node cover exactly the parent's rectangle with disjoint interiors, in the order lower-left, lower-right, upper-left, upper-right, and rebuilding the parent from the four children restores its domain, path and level; by induction the leaves of any quadtree tile the root domain.", "quantifier": "all domains, all quadtrees", "why_tests_cant": "all tree shapes and domains", "anchors": ["src/Patches/FiniteVolume/FiniteVolumeNodeFactory.cpp: createChildNode, createParentNode", "src/HPSAlgorithm.hpp: mergePatch_"]}
{"id": "C35", "title": "Node paths identify nodes", "statement": "Distinct quadtree nodes have distinct paths; a node's path is its parent's path plus its child number, so path length minus one is its level and the ancestor relation is the prefix relation.", "quantifier": "all quadtrees and quadrants of any depth", "why_tests_cant": "all depths", "anchors": ["src/P4est.cpp: p4est_quadrant_path", "src/Patches/FiniteVolume/FiniteVolumeNodeFactory.cpp: createChildNode"]}
{"id": "C36", "title": "The node map contains exactly the nodes of the tree", "statement": "After constructing a quadtree every node whose owner range contains a rank is present on that rank under its path with the correct level, leaf flag, domain and owner range, and no other path maps to a node; for a rank with at least one leaf this includes every node overlapping its share.", "quantifier": "all quadtrees and partitions into ranks", "why_tests_cant": "all tree shapes and partitions", "anchors": ["src/Quadtree.hpp: Quadtree::Quadtree, p4est_search_visit"]}
{"id": "C37", "title": "Traversals visit every node exactly once in the documented order", "statement": "traversePreOrder/PostOrder call the callback exactly once for each owned node, parents before (after) children and siblings in order; merge calls the family function of a node only after all nodes below it, split only after all nodes above it.", "quantifier": "all quadtrees", "why_tests_cant": "all tree shapes", "anchors": ["src/Quadtree.hpp: traversePreOrder, traversePostOrder, merge, split, p4est_search_merge_split"]}
{"id": "C38", "title": "Parallel merge equals serial merge", "statement": "For every distribution of the leaves over ranks, after a merge traversal every rank holds for every node it owns exactly the data the serial traversal computes, every collective is entered by the same set of ranks in the same order (no deadlock), and all participants of a broadcast agree on its root.", "quantifier": "all quadtrees, all partitions into contiguous rank ranges, all deterministic callbacks", "why_tests_cant": "all partitions and schedules", "anchors": ["src/Quadtree.hpp: p4est_search_merge_split", "src/MPI.cpp: communicatorSubsetRange", "src/QuadNode.hpp: broadcast"]}
{"id": "C39", "title": "Messages are received as sent", "statement": "For every value of a supported composite type (vector, matrix, string, node, patch), receive after send yields an equal value and consumes exactly the messages of that value, so any sequence of sends is recovered by the same sequence of receives.", "quantifier": "all values including empty ones, all sequences", "why_tests_cant": "all payload sizes and sequences", "anchors": ["src/MPI.hpp: send, receive, broadcast (vector)", "src/MPI.cpp: send, receive, broadcast (string)", "src/Matrix.hpp: send", "src/Vector.hpp: send", "src/QuadNode.hpp: send"]}
{"id": "C40", "title": "Broadcast replicates the root's value", "statement": "After broadcast of a composite value every participating rank holds a value equal to the root's value, whatever it held before.", "quantifier": "all values, ranks and previous contents", "why_tests_cant": "depends on previous contents of the receiving buffer", "anchors": ["src/MPI.hpp: broadcast", "src/MPI.cpp: broadcast", "src/Patches/FiniteVolume/FiniteVolumePatch.cpp: broadcast", "src/Matrix.hpp: broadcast", "src/Vector.hpp: broadcast"]}
{"id": "C41", "title": "Function-driven refinement respects its limits", "statement": "In the mesh produced by refineByFunction no leaf is deeper than max_level, none is shallower than min_level, and every leaf shallower than max_level has no cell centre at which the refinement function is true.", "quantifier": "all refinement functions, levels and patch sizes", "why_tests_cant": "all functions", "anchors": ["src/Mesh.hpp: refineByFunction"]}
{"id": "C42", "title": "Mesh output arrays are consistent and cell data lines up with cells", "statement": "After setMeshFromQuadtree the number of cells is the total number of leaf cells, each cell has four corner points forming its rectangle, connectivity refers to existing points, offsets and types have one entry per cell; the k-th entry of data appended leaf by leaf in pre-order belongs to the k-th cell.", "quantifier": "all quadtrees and patch sizes", "why_tests_cant": "all trees", "anchors": ["src/Mesh.hpp: setMeshFromQuadtree, iterateCells, addMeshFunction"]}
{"id": "C43", "title": "Rebuilding the mesh arrays replaces them", "statement": "Calling setMeshFromQuadtree (or refining) again describes only the current tree.", "quantifier": "all sequences of calls", "why_tests_cant": "history dependent", "anchors": ["src/Mesh.hpp: setMeshFromQuadtree"]}
{"id": "C44", "title": "Interpolation brackets the query and does not depend on history", "statement": "For every strictly monotone abscissa vector, every interpolant value at x depends only on x and the table, never on previously evaluated points; at a node it returns the table value; between two nodes the linear interpolant lies on the chord.", "quantifier": "all tables, all query sequences", "why_tests_cant": "all call histories", "anchors": ["src/Interpolation.cpp: locate_, hunt_, operator(), rawInterp"]}
{"id": "C45", "title": "Options are stored and read back with their type", "statement": "An option written through the API or an ini file is read back with the same key and a value of the type its text denotes: true/false as bool, integers (including negative) as int, decimals as double, everything else as the string itself.", "quantifier": "all keys and value texts", "why_tests_cant": "all strings", "anchors": ["src/Options.cpp: readINIFile, checkValue, isInt, isDouble, setOption", "src/InputParser.cpp: parse"]}
{"id": "C46", "title": "Timers accumulate", "statement": "A timer's time is the sum of the durations of its start/stop intervals since construction or the last restart.", "quantifier": "all call sequences", "why_tests_cant": "all histories", "anchors": ["src/Timer.cpp: start, stop, time, restart"]}
{"id": "C47", "title": "XML output is well nested and can be read back", "statement": "The text written for any tree of nodes whose names, attributes and data contain no markup characters is a well-formed document from which exactly that tree can be recovered.", "quantifier": "all trees", "why_tests_cant": "all trees", "anchors": ["src/XMLTree.cpp: write, write_"]}
{"id": "C48", "title": "VTK writers can be used repeatedly", "statement": "Writing a mesh to VTK any number of times with the same writer produces the same file content each time.", "quantifier": "all sequences of writes", "why_tests_cant": "history dependent", "anchors": ["src/VTK.cpp: UnstructuredGridVTK::toVTK, RectilinearGridVTK::toVTK, PUnstructuredGridVTK::toVTK"]}
{"id": "C49", "title": "Norms are norms of the difference", "statement": "vectorInfNorm(a,b), vectorL2Norm(a,b) and matrixInfNorm(A,B) are zero exactly when the arguments are equal, symmetric, satisfy the triangle inequality, bound every entry difference, and throw on shape mismatch.", "quantifier": "all vectors/matrices", "why_tests_cant": "metric laws over all inputs", "anchors": ["src/Vector.hpp: vectorInfNorm", "src/Vector.hpp: vectorL2Norm", "src/Matrix.hpp: matrixInfNorm"]}
{"id": "C50", "title": "The operator cache and the app singleton return what was stored", "statement": "A value stored in a DataCache under a key is returned for that key and no other until overwritten, and contains() tells whether it is there; the application instance returned by getInstance is the latest constructed application.", "quantifier": "all keys and call histories", "why_tests_cant": "all histories", "anchors": ["src/DataCache.hpp", "src/GenericSingleton.hpp"]}
{"id": "C51", "title": "In-place scalar operations accept an entry of the same vector", "statement": "`v *= v[k]`, `v /= v[k]` and `v -= v[k]` combine every entry of v with the value v[k] had before the call.", "quantifier": "all vectors, all k", "why_tests_cant": "Depends on whether the argument aliases the vector and on the position of the entry; a test with a literal scalar or with the last entry passes.", "anchors": ["src/Vector.hpp: Vector::operator-=, operator*=, operator/= (const NumericalType&)"]}
{"id": "C52", "title": "Interpolation constructor refuses sizes it cannot handle", "statement": "For an even number of fine cells with fewer than three coarse cells, `InterpolationMatrixCoarse2Fine<double>` does not silently return a matrix that fails to interpolate constants: it either throws or returns a matrix whose rows sum to one.", "quantifier": "all fine sizes 2m with 1 <= m <= 2", "why_tests_cant": "the tests only exercise sizes where the three-point edge formula fits; the failure is silent", "anchors": ["src/SpecialMatrices.hpp: InterpolationMatrixCoarse2Fine"]}
{"id": "C53", "title": "The parallel header leads to the files of all ranks", "statement": "After all ranks have called PUnstructuredGridVTK::toVTK(base), the file base.pvtu is a well-formed header of a parallel unstructured grid whose Source names, resolved from the directory of the header, are exactly the files the ranks have written, once each and in rank order.", "quantifier": "all base names, all numbers of ranks, all meshes and data arrays", "why_tests_cant": "depends on the characters and length of the base name and on the number of ranks; a test in the current directory with one rank passes", "anchors": ["src/VTK.cpp: PUnstructuredGridVTK::toVTK", "src/VTK.cpp: PUnstructuredGridVTK::PUnstructuredGridVTK", "src/Mesh.hpp: Mesh::toVTK"]}
{"id": "C54", "title": "Interface systems of an elliptic problem are nonsingular on adaptive meshes too", "statement": "For an elliptic problem (beta positive, lambda/alpha not positive) every linear system the build stage solves to merge four patches is nonsingular, on every adaptive mesh; so a run that reports no error has the solution of the discrete problem (for example constants are reproduced).", "quantifier": "all adaptive quadtrees, all elliptic coefficient functions, all patch sizes the code accepts", "why_tests_cant": "singularity depends on a special combination of coefficients and refinement; for constant coefficients no test meets it, and the return code of LAPACK is only printed", "anchors": ["src/HPSAlgorithm.hpp: mergeX_", "src/HPSAlgorithm.hpp: mergeS_", "src/HPSAlgorithm.hpp: coarsen_", "src/Matrix.hpp: solve", "src/SpecialMatrices.hpp: InterpolationMatrixFine2Coarse"]}
{"id": "C55", "title": "A VTK file describes the mesh and data its writer was given", "statement": "After any sequence of buildMesh, addPointData and addCellData calls on a VTK writer, the file written by toVTK describes the last mesh given, with that mesh's coordinates, and all data arrays in the order they were added, with the contents they have at the time of the write; without a mesh toVTK throws.", "quantifier": "all call sequences, all meshes and arrays, all three kinds of writer", "why_tests_cant": "depends on the whole history of the writer object; a test that builds one mesh and writes once passes", "anchors": ["src/VTK.cpp: RectilinearGridVTK::buildMesh, addPointData, addCellData, toVTK", "src/VTK.cpp: UnstructuredGridVTK::buildMesh, addPointData, addCellData, toVTK", "src/VTK.cpp: PUnstructuredGridVTK::buildMesh"]}
{"id": "C56", "title": "The numbers in a VTK file are the numbers of the program", "statement": "Reading the data text of a vector given to a VTK writer yields the entries of the vector in order, distinct values stay distinct, and the range attributes are the smallest and largest values in the file.", "quantifier": "all vectors of finite doubles or ints", "why_tests_cant": "depends on the magnitude of every value; a test with values near one passes", "anchors": ["src/Vector.hpp: Vector::getRangeMin, getRangeMax, getData", "src/VTK.cpp: DataArrayNodeBase::toVTK"]}
{"id": "C57", "title": "The two leaf solver types are interchangeable", "statement": "Choosing solver type FISHPACK90 instead of the five-point stencil solves the same problem: for the coefficient functions the user set, each leaf solve, each leaf operator and each whole run gives the same values with either type.", "quantifier": "all coefficient functions for which the problem is elliptic, all leaf sizes, all meshes, loads and boundary data", "why_tests_cant": "a test compares the types for one choice of coefficients, and the Poisson test cases are those for which both agree", "anchors": ["src/Patches/FiniteVolume/FiniteVolumeSolver.cpp: FiniteVolumeSolver::solve", "src/Patches/FiniteVolume/FiniteVolumeSolver.hpp: FiniteVolumeSolverType, FiniteVolumeSolver::solver_type"]}
{"id": "C58", "title": "The optimised leaf operator is the leaf operator", "statement": "Compiling with DTN_OPTIMIZE, which computes only the columns of the West side of a leaf operator and derives the others by symmetry, changes no leaf operator and no result of a run.", "quantifier": "all coefficient functions, all leaf sizes and rectangles, all meshes", "why_tests_cant": "the symmetries hold for constant coefficients on squares, which are the test cases; a test of one leaf says nothing about other coefficients or shapes", "anchors": ["src/Patches/FiniteVolume/FiniteVolumeSolver.cpp: FiniteVolumeSolver::buildD2N"]}
{"id": "C59", "title": "A run depends on the leaf solver only through its results on the leaf grids", "statement": "Two leaf solver objects that return equal operators, fluxes and solutions on the grids of the rectangles obtained from the domain by quartering give equal trees after the build stage and equal solutions after the upwards and solve stages, whatever they do on other grids or sizes.", "quantifier": "all leaf solvers, meshes, options, loads and boundary data", "why_tests_cant": "a test runs particular solvers; independence from everything else a solver object does is a statement about all of them", "anchors": ["src/HPSAlgorithm.hpp: HPSAlgorithm::buildStage, upwardsStage, solveStage", "src/PatchSolver.hpp: PatchSolverBase"]}
{"id": "C60", "title": "Building a quadtree makes only MPI calls the standard allows", "statement": "Constructing a quadtree from a forest whose leaves are spread over any number of ranks, and rebuilding it after refinement, ends on every rank without an erroneous MPI call, and creates on each rank one communicator per quadrant whose owner range contains that rank.", "quantifier": "all forests, all distributions of leaves over ranks, all interleavings of the ranks, all sequences of rebuilds", "why_tests_cant": "whether naming the communicator of another group is caught depends on the MPI library and its error handler; a test sees one library and a few rank counts", "anchors": ["src/MPI.cpp: communicatorSubsetRange", "src/Quadtree.hpp: Quadtree(p4est_t*, ...)", "src/QuadNode.hpp: Node"]}
{"id": "C61", "title": "A mesh gives back what it allocated", "statement": "Refining a mesh any number of times and destroying it leaves no node and no communicator behind: everything the quadtree allocated has been given back.", "quantifier": "all sequences of forests a mesh is rebuilt for, all ranks", "why_tests_cant": "leaked nodes and communicators change no result; a test would have to count resources over every sequence of rebuilds", "anchors": ["src/Quadtree.hpp: ~Quadtree, operator=(Quadtree&&)", "src/Mesh.hpp: refineByFunction", "src/QuadNode.hpp: ~Node"]}
{"id": "C62", "title": "Gathering gives every rank all data in rank order", "statement": "allgather and allgatherv of standard vectors and library vectors put on every rank the data of all ranks, in rank order at the given displacements, for any lengths including zero.", "quantifier": "all numbers of ranks, all data, all counts and displacements, ranks that contribute nothing included", "why_tests_cant": "each number of ranks and each distribution of lengths is another case, and reading the first element of an empty vector usually goes unnoticed", "anchors": ["src/MPI.hpp: allgather, allgatherv, TypeTraits<std::vector<T>>", "src/Vector.hpp: allgather, allgatherv"]}
{"id": "C63", "title": "The PETSc objects behind the parallel vectors and matrices are destroyed exactly once", "statement": "However a program constructs, copies, assigns, moves, uses and drops parallel vectors and matrices, no PETSc object is destroyed twice or used after it was destroyed, and none is left when all variables are gone.", "quantifier": "all programs over any number of variables", "why_tests_cant": "a test follows one program; ownership is a statement about every sequence of copies, moves and destructions", "anchors": ["src/Vector.hpp: ParallelVector", "src/Matrix.hpp: ParallelMatrix", "src/SpecialMatrices.hpp: ParallelIdentityMatrix"]}
{"id": "C64", "title": "A copied vector is written like the original", "statement": "A copy of a vector, by construction or assignment, appears in a VTK file with the same name, type, number of components, range and data as the original.", "quantifier": "all vectors, names, types and numbers of components", "why_tests_cant": "tests compare entries of copies, which do agree; the attributes matter only in files", "anchors": ["src/Vector.hpp: Vector(Vector&), Vector(const Vector&), operator=, name, setType, setNumberOfComponents"]}
{"id": "C65", "title": "The example program on several ranks leaves the finite volume solution on the mesh", "statement": "A program that refines a mesh, runs the setup, build, upwards and solve stages (any number of solves) and collects the solution and the load of the leaves as the example does, ends on every rank of the communicator, however the collective operations interleave; the vectors it adds to the mesh hold, in the order of the cells of the mesh arrays of the rank, the solution and the load a serial run computes, which on a uniformly refined mesh are the finite volume solution of the whole grid and the load at the cell centres, and every cell belongs to some rank. This does not depend on how the leaves are dealt to the ranks or on the option cache-operators.", "quantifier": "all meshes and assignments of leaves to ranks, all numbers of ranks and solves, all loads, Dirichlet data and elliptic coefficients, all interleavings", "why_tests_cant": "tests run one mesh on one number of ranks; that no interleaving blocks or changes the result, for any mesh and any number of ranks, is a statement about all runs", "anchors": ["examples/elliptic-single/main.cpp: main", "src/HPSAlgorithm.hpp: setupStage, buildStage, upwardsStage, solveStage", "src/Quadtree.hpp: merge, split, root, traversePreOrder", "src/Mesh.hpp: refineByFunction, addMeshFunction"]}
{"id": "C66", "title": "The MPI calls of the example program match and lead to the solution", "statement": "Written out down to the calls of MPI_Allreduce, MPI_Barrier and MPI_Bcast, the programs of the ranks (refine, set up, build, any number of solves, collect) only make calls that match: every collective is entered by all ranks of its communicator with the same root, datatype and count, whatever the order in which communicators get their turn; the program ends on every rank without undefined behaviour, after the same number of calls, and leaves the meshes of C65.", "quantifier": "all meshes, assignments of leaves to ranks, numbers of ranks and solves, problems, and interleavings of the calls; also all sequences of requests on a built solver", "why_tests_cant": "a test runs one interleaving on one number of ranks, and a broadcast from an empty vector usually passes unnoticed", "anchors": ["src/Quadtree.hpp: merge, split, p4est_search_merge_split", "src/QuadNode.hpp: MPI::broadcast", "src/MPI.hpp: broadcast", "src/Patches/FiniteVolume/FiniteVolumePatch.cpp: MPI::broadcast", "src/HPSAlgorithm.hpp: buildStage, upwardsStage, solveStage", "examples/elliptic-single/main.cpp: main"]}
{"id": "C67", "title": "Boundary conditions with derivatives hold in the result", "statement": "If the boundary function given to the solve stage sets a, b and returns r, the leaf values together with boundary values solve the discretised equation of the whole grid with a u + b du/dn = r at every boundary cell of the domain, du/dn the derivative along the outward normal, whenever that problem is well posed (a, b not negative, not both zero, and the value itself entering somewhere).", "quantifier": "all uniformly refined meshes, elliptic coefficients, loads and boundary functions with mixed Dirichlet, Neumann and Robin conditions", "why_tests_cant": "tests use Dirichlet data, or Neumann data that vanish, for which the direction of the normal makes no difference; nonsingularity for every resolution is not a matter of examples", "anchors": ["src/HPSAlgorithm.hpp: solveStage(boundary_analytical_function)", "src/Patches/FiniteVolume/FiniteVolumeSolver.cpp: mapD2N, buildD2N, particularNeumannData", "examples/thermal/main.cpp: solveStage callback"]}
{"id": "C68", "title": "The time loop of the thermal example makes implicit Euler steps", "statement": "The program that builds the solver once and then, for every time, sets a load from the solution of the previous time and solves again, returns for every number of steps, and the array after each pass follows from the one before by an implicit (backward) Euler step of the heat equation du/dt = div(beta grad u) + sources, with the temperatures prescribed on West and East and the outward fluxes on South and North of that time; the array labelled with the start time is the initial condition. For every step length the temperatures stay within the bounds of the data, depend on the data continuously and tend to the steady solution when the data do not depend on time.", "quantifier": "all meshes (returning), all uniformly refined meshes (steps), all conductivities beta > 0, step lengths dt > 0, numbers of steps and boundary and source functions of space and time", "why_tests_cant": "stability and convergence for every step length and any number of steps are statements about all runs of the loop; the example has no flux and no source, so wrong signs there cannot be seen", "anchors": ["examples/thermal/main.cpp: main (time loop), lambdaFunction, uWest, uEast, dudnSouth, dudnNorth, sources", "src/HPSAlgorithm.hpp: buildStage, upwardsStage(callback), solveStage(boundary_analytical_function)"]}
{"id": "C69", "title": "Second order convergence to the solution of the differential equation", "statement": "For an elliptic problem alpha div(beta grad u) + lambda u = f on a rectangle, with beta and the solution u four times differentiable on the closed rectangle, there is a constant that does not depend on the mesh such that on every uniformly refined mesh the build, upwards and solve stages, given f and the values of u on the boundary, return and leave in every cell of every leaf a value that differs from u at the centre of the cell by at most the constant divided by the square of the number of cells per side. So every accuracy is reached by refining the quadtree, by enlarging the patches, or both.", "quantifier": "all rectangles, coefficients with beta > 0, alpha nonzero, lambda/alpha <= 0, smooth u; all patch sizes N >= 2, all depths of uniform refinement, all cells", "why_tests_cant": "a test compares errors on a few meshes for one manufactured solution; that one constant bounds the error on all meshes is a limit statement", "anchors": ["src/HPSAlgorithm.hpp: buildStage, upwardsStage, solveStage", "src/Patches/FiniteVolume/FiniteVolumeSolver.cpp: solve, mapD2N", "examples/elliptic-multiple/main.cpp: solveEllipticViaHPS"]}
{"id": "C70", "title": "Errors reported by the convergence studies", "statement": "The convergence study on quadtrees returns, on any number of ranks, the mean, the root mean square and the maximum of the differences between computed and exact solution over all cells of the mesh, weighted with the cell areas, and the number of all cells; the mean is at most the root mean square and this at most the maximum. For smooth elliptic problems these errors are at most a constant, independent of the mesh, divided by the square of the number of cells per side on uniformly refined meshes. The single patch study collects for every number n of cells per side the largest error of the finite volume solution, at most a constant divided by n squared.", "quantifier": "all meshes and all distributions of the leaves over ranks, all patch sizes, loads, boundary values, exact solutions, numbers of solves; all lists of n >= 2", "why_tests_cant": "the studies print numbers for a few meshes on one rank; that the numbers describe the whole solution for every mesh and every number of ranks, and that one constant bounds them all, is not visible in any run", "anchors": ["examples/elliptic-multiple/main.cpp: solveEllipticViaHPS, ResultsData", "examples/patch-solver/main.cpp: main", "src/Quadtree.hpp: traversePostOrder", "src/Vector.hpp: concatenate, vectorInfNorm"]}
{"id": "C71", "title": "Solver stages give the same result, bit for bit, on any number of ranks", "statement": "Run the build, upwards and solve stages (without operator cache) on the same mesh, the same patch solver and the same user functions, once with the leaves dealt to some number of MPI ranks and once dealt differently or to another number of ranks. Either both runs end and the leaf data read rank after rank are the same list, not only up to rounding; or both fail in the same way, with the same exception. Nothing about the arithmetic is used: any data, any deterministic callbacks.", "quantifier": "all meshes, all two ways of dealing leaves in order to ranks so that every rank has a leaf, all numbers of ranks, all data types, all sequences of stages, all leaf, family and root callbacks (rounding, throwing or undefined ones included), all orders in which ranks proceed", "why_tests_cant": "A test compares two runs of one problem on a few rank counts with a tolerance; it cannot tell reproducibility to the last bit for every mesh, distribution and schedule, nor that a failure on one rank is the failure of the serial run.", "anchors": ["src/Quadtree.hpp: Quadtree::merge, Quadtree::split, Quadtree::traversePreOrder", "src/HPSAlgorithm.hpp: HPSAlgorithm::buildStage, upwardsStage, solveStage", "src/QuadNode.hpp: MPI::broadcast(Node)"]}
{"id": "C72", "title": "Identity and diagonal matrices", "statement": "An identity matrix of any size is neutral: products with it from the left and the right, its product with a vector and linear solves with it return the other operand unchanged. A diagonal matrix made from a vector multiplies the rows of a matrix from the left, its columns from the right and the entries of a vector; if no entry is zero, a linear solve with it divides by the entries.", "quantifier": "all sizes from one on, all matrices, vectors and diagonals over any field", "why_tests_cant": "A unit test checks the entries for one small size; neutrality for every size and operand is an algebraic law.", "anchors": ["src/SpecialMatrices.hpp: IdentityMatrix, DiagonalMatrix", "src/Matrix.hpp: operator*, solve"]}
{"id": "C73", "title": "The files of the example program", "statement": "The elliptic example, run on any number of processes, ends on all of them. Every process writes one piece file, and process 0 writes a header that names the pieces of all processes. Read back, the piece of a process shows the cells of the leaves it owns and six fields under their names: in every cell the number printed is within half a millionth of the computed solution in that cell, of the right-hand side, of the coefficients and of the exact solution at the centre of the cell. On a uniformly refined mesh the solution shown is that of the finite volume problem of the whole grid, and every cell of the grid is in the file of some process.", "quantifier": "all meshes and distributions in which every process owns a leaf, all coefficients, right-hand sides, boundary values, exact solutions, numbers of solves and states of the heap at the beginning of the output", "why_tests_cant": "A test opens one file of one run; that file, mesh order, solver order and ranks fit together for every mesh and every schedule of the processes is a statement about all runs.", "anchors": ["examples/elliptic-single/main.cpp: main", "src/Mesh.hpp: addMeshFunction, toVTK", "src/VTK.cpp: UnstructuredGridVTK"]}
{"id": "C74", "title": "The files of the time loop", "statement": "The thermal example, run on any number of processes, ends on all of them after any number of steps. If output is on, it writes one set of files per pass whose number is a multiple of n-vtk, numbered consecutively from zero, and nothing for other passes or with output off. Output number i shows, cell by cell within half a millionth, the solution and the load of the pass it belongs to, and the coefficients; functions of earlier outputs are not repeated. On a uniformly refined mesh the solutions shown are those of implicit Euler steps of the heat equation that start from zero.", "quantifier": "all meshes and distributions in which every process owns a leaf, all boundary values, fluxes, sources, diffusivities, step lengths, numbers of steps and output intervals", "why_tests_cant": "Files that belong to the wrong pass, are numbered wrongly or repeat old data look plausible; that the i-th file shows the right pass on every process for every interval and number of steps needs induction over the loop.", "anchors": ["examples/thermal/main.cpp: main", "src/Mesh.hpp: clearMeshFunctions, addMeshFunction, toVTK", "src/HPSAlgorithm.hpp: upwardsStage, solveStage"]}
{"id": "C75", "title": "The time loop converges to the heat equation", "statement": "Let v be a smooth solution of the heat equation dv/dt = div(beta grad v) + q on the rectangle that is zero at t-start. The thermal example, given q, the values of v on the West and East side and its outward fluxes on the South and North side, returns after every pass, and the temperature in every cell of every leaf after the pass of time t is within a constant times (dt + 1/m^2) of v at the cell centre at time t, where m is the number of cells per side. The constant does not depend on the mesh, the step length or the number of steps.", "quantifier": "all rectangles, positive smooth diffusivities, smooth solutions, step lengths, uniformly refined meshes and patch sizes of at least 2, all passes up to the end of the interval on which v is a solution", "why_tests_cant": "Runs with a few step lengths and meshes show errors for these only; that errors of all steps do not pile up and shrink at the given rate on all meshes and for all solutions is a statement about infinitely many runs.", "anchors": ["examples/thermal/main.cpp: main, uWest, uEast, dudnSouth, dudnNorth, sources, betaFunction, lambdaFunction", "src/HPSAlgorithm.hpp: upwardsStage, solveStage", "src/Patches/FiniteVolume/FiniteVolumeSolver.cpp: solve, buildD2N"]}
{"id": "C76", "title": "Second order convergence with derivatives in the boundary conditions", "statement": "Let u be a smooth solution of alpha div(beta grad u) + lambda u = f on the rectangle. Give the solver f and, side by side, either the values of u or the data kappa u + du/dn (outward derivative, kappa >= 0) with coefficients a = kappa, b = 1, with values on at least one side. Then all stages succeed and the value in every cell of every leaf is within a constant over m^2 of u at the cell centre, m being the number of cells per side; so the error becomes arbitrarily small on fine meshes.", "quantifier": "all rectangles, smooth solutions, coefficients with beta > 0 and lambda/alpha <= 0, all choices of value and flux sides with at least one value side, all kappa >= 0, all uniformly refined meshes and patch sizes of at least 2", "why_tests_cant": "Error tables show a rate for one solution on a few meshes; that the rate holds for every smooth solution and every combination of conditions, down to any mesh width, is a statement about infinitely many runs.", "anchors": ["src/HPSAlgorithm.hpp: solveStage(boundary_analytical_function)", "src/Patches/FiniteVolume/FiniteVolumeSolver.cpp: solve, buildD2N", "examples/elliptic-single/main.cpp: main"]}
{"id": "C77", "title": "Mesh functions are references", "statement": "A mesh file shows the functions added since they were last cleared, in the order they were added. A function given as a vector is shown with the entries the vector has when the file is written; a function of x and y with its values at the cell centres. The vectors have to exist until the file is written and no longer, and the example programs respect this in every output. Once the functions are cleared and the caller's vectors are gone, the mesh occupies no memory for them.", "quantifier": "all sequences of declaring, changing and ending vectors, adding functions, clearing and writing, on every mesh and rank; all runs of the two example programs", "why_tests_cant": "Whether a dangling pointer is followed depends on the order of lifetimes and calls, and a test that reads freed memory often still shows the right numbers; memory that is never returned shows up in no result.", "anchors": ["src/Mesh.hpp: addMeshFunction, clearMeshFunctions, toVTK, mesh_functions", "examples/thermal/main.cpp: main", "examples/elliptic-single/main.cpp: main"]}
{"id": "C78", "title": "Sizes and 32-bit integers", "statement": "Whatever the sizes, the arrays of a mesh, the solution and fluxes of a leaf patch, and values that are sent or broadcast come out as if the integers of the program had no limit, or an error is reported.", "quantifier": "all forests, leaf grids, right hand sides and boundary data; all sequences of values sent with any tags, all broadcasts on any number of ranks; all sizes", "why_tests_cant": "The sizes at which int arithmetic overflows or a length is cut off need gigabytes of memory, and an overflow is undefined behaviour that may show nothing.", "anchors": ["src/Mesh.hpp: setMeshFromQuadtree", "src/Patches/FiniteVolume/FiniteVolumeSolver.cpp: solve, mapD2N, gridIndex2MatrixIndex", "src/MPI.hpp: send, receive, broadcast, TypeTraits", "src/MPI.cpp: send, receive, broadcast", "src/Matrix.hpp: MPI::send, MPI::receive, MPI::broadcast"]}
{"id": "C79", "title": "Reported size of the data", "statement": "The size of the data that a convergence study reports next to its errors is the memory held by the operators and vectors of the whole mesh: with N x N cells on each of the L leaves of a mesh, at most (18 N^2 + 8 N) L + (36 N^2 + 10 N) D numbers where D is the sum of the depths of the leaves, and exactly 4^d (N^2 (18 + 36 d) + 18 N) - 10 * 2^d N numbers on the uniform mesh of level d, plus 17 bytes per node. It does not depend on the equation, the load, the boundary conditions, the leaf solver, or how often the problem has been solved, and it is the same on any number of ranks.", "quantifier": "all meshes (uniform, or adaptive with at least 3 cells per side of a leaf), all numbers of cells per leaf, all distributions over ranks, all problems, all numbers of solves", "why_tests_cant": "A test measures the size on a few small meshes; the growth with depth and the independence of problem and distribution are statements about all meshes, and on several ranks the number printed by one rank looks plausible although it is neither the size on all ranks nor that of the mesh.", "anchors": ["src/Patches/FiniteVolume/FiniteVolumePatch.cpp: FiniteVolumePatch::dataSize", "examples/elliptic-multiple/main.cpp: solveEllipticViaHPS", "src/Quadtree.hpp: Quadtree::traversePostOrder", "src/HPSAlgorithm.hpp: HPSAlgorithm::merge4to1, upwards4to1, split1to4"]}
{"id": "C80", "title": "Results file of a convergence study", "statement": "A convergence study over patch sizes and refinement levels runs to the end on any number of ranks, and every rank writes one table: the named columns, then one row per run in the order of the study, uniform runs before adaptive ones, leaving out exactly the runs with more than 1024 cells per side of the domain. Each row shows the mode, the levels and the patch size of its run, the number of cells, the errors and the size of the data of the whole mesh of that run, and the times of that run alone. Every number in the table reads back as exactly the double that was written. On a smooth problem the errors in the uniform rows are at most a constant over the square of the effective resolution in the same row.", "quantifier": "all lists of patch sizes (at least 3) and levels, all meshes the refinement gives for the runs, all distributions over ranks, all problems and leaf solvers with operators of the right sizes, all readings of the clock, all finite doubles", "why_tests_cant": "A test runs the study with one list and looks at one file. That rows and runs match for every list, that no number loses digits on the way to the file for any of the 2^64 doubles, and that no time of an earlier run leaks into a later row are statements about all inputs; and a file of one rank of several looks complete although its numbers are not those of the mesh.", "anchors": ["examples/elliptic-multiple/main.cpp: main, solveEllipticViaHPS, ResultsData::csv, ResultsData::headers, number2string", "src/EllipticForestApp.hpp: EllipticForestApp::addTimer, timers", "src/Timer.hpp: Timer", "src/HPSAlgorithm.hpp: HPSAlgorithm::setupStage, buildStage, upwardsStage, solveStage"]}
{"id": "C81", "title": "Options on the command line of the example programs", "statement": "An option given as --key=value on the command line of an example program (elliptic-single, elliptic-multiple, thermal) is in effect in that run: the program starts, and the option has the value given last for it, also where the program has a default of its own.", "quantifier": "the three programs, all command lines of long options with boolean, unsigned integer or decimal values, all keys; all lists of runs of a convergence study", "why_tests_cant": "A test tries a few options; that no command line at all changes an option the program knows, and that no read of an option can fail after any command line, are statements about all command lines.", "anchors": ["src/EllipticForestApp.cpp: EllipticForestApp(int*, char***)", "src/InputParser.cpp: parse", "src/Options.cpp: setOption, operator[], checkValue", "src/HPSAlgorithm.hpp: buildStage, upwardsStage, merge, split", "examples/elliptic-single/main.cpp: main", "examples/elliptic-multiple/main.cpp: main, solveEllipticViaHPS", "examples/thermal/main.cpp: main"]}
{"id": "C82", "title": "The patch solver program reports the errors and the order of the patch solver", "statement": "The program patch-solver runs to its end and logs, for every size in its list, the largest difference over all cells between the solution of the discrete problem of that size and the exact solution; for a smooth problem these errors are of second order and of no higher order, and the logged convergence order is the one of the last two sizes and approaches two.", "quantifier": "all elliptic problems with smooth coefficients and solution, all rectangles, all lists of at least two sizes from 2 cells per side, all LU solvers that solve nonsingular systems", "why_tests_cant": "Running the program shows five errors and one number near two; that the number comes from the order of the method and not from the chosen problem and sizes needs bounds on the error from above and below for all sizes.", "anchors": ["examples/patch-solver/main.cpp: main, uExact, fRHS", "src/Patches/FiniteVolume/FiniteVolumeSolver.cpp: solve", "src/Patches/FiniteVolume/FiniteVolumeGrid.cpp: operator()", "src/Vector.hpp: concatenate, vectorInfNorm"]}
{"id": "C83", "title": "Solutions depend on the data monotonically and stably", "statement": "On a uniformly refined mesh the solution the stages return does not grow anywhere when the boundary values are lowered and the load divided by alpha is raised; without load every cell value lies between the bounds of the boundary values and zero; and there is one constant, the same for all meshes, patch sizes and data, such that changing the boundary values by at most delta and the load divided by alpha by at most epsilon changes no cell value by more than delta plus the constant times epsilon.", "quantifier": "all elliptic problems (alpha nonzero, beta positive, lambda/alpha not positive), all uniformly refined meshes of any depth and patch size from 2, all loads and Dirichlet boundary values, all LAPACK and LU solvers that solve nonsingular systems; for the constant: beta bounded below and Lipschitz in x", "why_tests_cant": "A test perturbs one data set on one mesh; that no mesh, however fine, amplifies a perturbation by more than one fixed factor is a statement about all meshes.", "anchors": ["src/HPSAlgorithm.hpp: buildStage, upwardsStage, solveStage", "src/Patches/FiniteVolume/FiniteVolumeSolver.cpp: solve, mapD2N"]}
{"id": "C84", "title": "The root operator gives the normal derivatives on the domain boundary", "statement": "After the build, upwards and solve stages on a uniformly refined mesh, the root patch's matrix applied to its boundary values plus its particular flux is, entry by entry, the one sided difference quotient between the boundary value and the value in the boundary cell of the returned solution. With Dirichlet conditions taken from a smooth solution of the differential equation there is one constant, the same for all meshes and patch sizes, such that every entry differs from the derivative of that solution across the side at the edge midpoint by at most the constant divided by the number of cells per side.", "quantifier": "all elliptic problems, all uniformly refined meshes of any depth and patch size from 2, all loads and boundary functions (first part, any mix of Dirichlet, Neumann and Robin conditions the code accepts); all smooth coefficients beta and smooth solutions (second part); all LAPACK and LU solvers that solve nonsingular systems", "why_tests_cant": "A test compares the fluxes of one problem on a few meshes; that the error goes to zero for every problem and no corner of any mesh spoils it is a statement about infinitely many meshes.", "anchors": ["src/HPSAlgorithm.hpp: buildStage, upwardsStage, solveStage, merge4to1, upwards4to1", "src/Patches/FiniteVolume/FiniteVolumeSolver.cpp: mapD2N, particularNeumannData"]}
{"id": "C85", "title": "The flux through the domain boundary balances the load", "statement": "The flux through the domain boundary computed from the root patch's matrix, boundary values and particular flux, weighted by beta and the edge lengths, equals the sum over all cells of the mesh of (f - lambda u) / alpha times the cell area: nothing is lost or created at the interfaces between patches, also not between patches of different refinement levels.", "quantifier": "all elliptic problems, loads and boundary functions; all uniformly refined meshes with any beta; all balanced adaptive meshes with constant beta and nonsingular interface systems", "why_tests_cant": "A test sums the fluxes of one problem; conservation has to hold for every mesh, every placement of hanging edges and every coefficient.", "anchors": ["src/HPSAlgorithm.hpp: buildStage, upwardsStage, solveStage, coarsen_, coarsenUpwards_, uncoarsen_, merge4to1, upwards4to1", "src/Patches/FiniteVolume/FiniteVolumeSolver.cpp: solve, mapD2N, particularNeumannData", "src/SpecialMatrices.hpp: InterpolationMatrixFine2Coarse, InterpolationMatrixCoarse2Fine"]}
{"id": "C86", "title": "Adaptive meshes are safe when the reaction term dominates", "statement": "If beta is at most B, -lambda/alpha is at least L, and L exceeds 6 B (17/8)^d (1/hx^2 + 1/hy^2), where hx, hy are the widths of the finest cells of the mesh and d is the number of levels by which the leaves of the mesh differ, then no interface system that the build stage sets up on an adaptive mesh is singular, whatever the shape of the mesh and however beta varies; constants are then reproduced exactly. This is the regime of implicit time steps that are small compared to the square of the cell width.", "quantifier": "all elliptic problems with variable alpha, beta, lambda that satisfy the inequality; all trees of any depth and shape whose leaves differ by at most one level, or by d levels with the patch size divisible by 2^d; all patch sizes from 3; all LAPACK and LU solvers that solve nonsingular systems", "why_tests_cant": "Without the inequality the systems can be singular for special coefficients (C54) that no test meets by chance; that the inequality excludes all of them on all meshes is a statement about infinitely many matrices.", "anchors": ["src/HPSAlgorithm.hpp: buildStage, merge4to1, mergeX_, mergeS_, coarsen_, tagPatchesForCoarsening_", "src/Patches/FiniteVolume/FiniteVolumeSolver.cpp: mapD2N, solve"]}
{"id": "C87", "title": "Log messages are shown as they are", "statement": "app.log(message) writes one line on every rank, app.logHead(message) one line on rank 0 and none elsewhere: the name and rank in brackets, then the message. Without arguments the message is shown character by character; with arguments the text around the conversion specifications is, and each argument is written by its own specification. All calls in the library and the example programs are of this kind, including those that log the results of a convergence study.", "quantifier": "all messages, all int and double arguments, all ranks and numbers of ranks, all results of a study", "why_tests_cant": "Tests log fixed strings; the message is used as a format, so whether it is shown, changed or undefined depends on every character of it.", "anchors": ["src/Logger.hpp: log, logHead", "src/HPSAlgorithm.hpp: setupStage, buildStage, upwardsStage, solveStage", "examples/elliptic-multiple/main.cpp: ResultsData::str, ResultsData::headers, main", "src/MPI.cpp: communicatorSubsetRange"]}
{"id": "C88", "title": "Solutions on adaptive meshes are bounded by the data when the reaction term dominates", "statement": "Let beta be at most B, -lambda/alpha at least L, and let Q = 6 B (17/8)^d (1/hx^2 + 1/hy^2) be less than L, where hx, hy are the widths of the finest cells of the mesh and d is the number of levels by which its leaves differ. If the Dirichlet values are at most M and the load divided by alpha is at most F in absolute value, every cell value computed on the adaptive mesh is at most Q/(3L) M + F/(L-Q) in absolute value. Changing the Dirichlet values by at most delta and the load divided by alpha by at most epsilon changes no cell value by more than Q/(3L) delta + epsilon/(L-Q). So an implicit time step that is small enough cannot blow up, however the mesh is refined.", "quantifier": "all elliptic problems with variable alpha, beta, lambda that satisfy the inequality; all loads and Dirichlet values; all trees of any depth and shape whose leaves differ by at most one level, or by d levels with the patch size divisible by 2^d; all patch sizes from 3; all LAPACK and LU solvers that solve nonsingular systems", "why_tests_cant": "A test sees the size of the answer for one mesh, one load and one set of boundary values; the bound holds for all of them, with constants that depend on the coefficients and the finest cells only. The coarsening of operators, loads and data between levels is where it could be lost, and that happens in arbitrarily many combinations.", "anchors": ["src/HPSAlgorithm.hpp: buildStage, upwardsStage, solveStage, merge4to1, mergeW_, mergeH_, split1to4, applyS_, coarsen_, uncoarsen_", "src/Patches/FiniteVolume/FiniteVolumeSolver.cpp: mapD2N, particularNeumannData, solve"]}
{"id": "C89", "title": "Printed vectors and matrices show their shape and every entry", "statement": "Writing a vector to a stream shows a line with its size and then its entries in order, eight on a line; writing a matrix shows a line with its shape and then one line for every row. The entries of a line are separate words, as many as there are entries, and each word read as a number agrees with the entry to four significant digits for double (entries below 1e-14 in absolute value may be shown as 0) and exactly for int.", "quantifier": "all vectors and matrices of any size whose entries are finite doubles or ints of 32 bits; all streams with default flags, whatever was written before and whatever the precision", "why_tests_cant": "A test looks at the text of a few matrices. That two entries never run into each other depends on the longest text a double can have with four digits, over all exponents from -324 to 308 and both signs; for wider integer types it is false.", "anchors": ["src/Vector.hpp: operator<<", "src/Matrix.hpp: operator<<"]}
{"id": "C90", "title": "Printing a vector or matrix leaves the stream as it was", "statement": "A number written to a stream after a vector or a matrix looks as it would without the vector or matrix before it.", "quantifier": "all streams, vectors, matrices and numbers", "why_tests_cant": "Tests check the text of the vector, not what becomes of output that follows somewhere else in the program.", "anchors": ["src/Vector.hpp: operator<<", "src/Matrix.hpp: operator<<"]}
{"id": "C91", "title": "The listing of the options shows every option with its value", "statement": "Writing the options to a stream shows one line for every option that exists, in ascending order of the names, with the name and the current value: texts as they are, true as 1 and false as 0, whole numbers exactly, other numbers to as many significant digits as the stream has precision. From the listing the options can be told apart. The format of the stream is not changed.", "quantifier": "all sets of options and all streams", "why_tests_cant": "The values come from users and files; a test has a few. Texts with line ends can look like other options, and values of different types look alike.", "anchors": ["src/Options.cpp: operator<<", "src/Options.hpp: OptionTypes, optionsMap"]}
{"id": "C92", "title": "A distributed matrix reports its sizes", "statement": "localRows(), localCols(), globalRows() and globalCols() called on any rank give the numbers of rows and columns that rank has and the matrix has in total, however the matrix was made: with explicit sizes, with sizes PETSc is to choose or add up, from a serial matrix, from an existing PETSc matrix, by index sets, as an identity matrix, or by create() and setSizes().", "quantifier": "all numbers of ranks, all sizes and distributions of rows and columns, all serial matrices", "why_tests_cant": "The tests print the sizes or use those they passed in; which of the constructors keep the placeholder for a size that is chosen later shows only when all of them are compared with what PETSc has, on every number of ranks.", "anchors": ["src/Matrix.hpp: ParallelMatrix", "src/Matrix.hpp: ParallelMatrix::localRows", "src/Matrix.hpp: ParallelMatrix::setSizes", "src/SpecialMatrices.hpp: ParallelIdentityMatrix"]}
{"id": "C93", "title": "What is put into a distributed matrix is there after assembly", "statement": "Every rank may set a block of any rows and columns of a distributed matrix. After assembly an entry has the value that was set, if the ranks that set it agree, and is zero if none did. A distributed matrix made from a serial matrix that all ranks have has its shape and entries. Every rank then reads any columns of any of its own rows in the order it asks for them, and every row belongs to exactly one rank.", "quantifier": "all numbers of ranks, all sizes and distributions, all index vectors and values, all orders in which PETSc may combine the values of the ranks", "why_tests_cant": "A test fixes the number of ranks, the distribution and one order of communication; how many rows a rank has depends on the remainder of a division, and the outcome must not depend on which rank's value arrives last.", "anchors": ["src/Matrix.hpp: ParallelMatrix::setValues", "src/Matrix.hpp: ParallelMatrix::getValues", "src/Matrix.hpp: ParallelMatrix(MPI::Communicator, Matrix<NumericalType>&)", "src/Matrix.hpp: ParallelMatrix::beginAssembly"]}
{"id": "C94", "title": "Moving matrices to a communicator with more ranks stacks their rows", "statement": "Constructing a distributed matrix on a new communicator from the matrices its ranks have gives the matrix whose rows are the rows the ranks had, all columns kept, in the order of the ranks, and it reports its sizes.", "quantifier": "all numbers of ranks, all shapes and entries of the matrices, all communicators they were on", "why_tests_cant": "The test moves square matrices of one rank each, the one case where cutting out columns by the numbers of the rows does no harm.", "anchors": ["src/Matrix.hpp: ParallelMatrix(MPI::Communicator, ParallelMatrix<NumericalType>&)"]}
{"id": "C95", "title": "In floating point arithmetic patches still fit together", "statement": "The bounds of a patch depend only on its place in the domain, whatever the rounding of the arithmetic: two patches, of any levels, ranks or meshes of the same root, that have a side on the same line have the same coordinate for it to the last bit. A parent made again from its children, by the node factory or by the merge, has exactly the bounds it had.", "quantifier": "all rounding functions, all domains, all adaptive meshes and distributions, all pairs of patches", "why_tests_cant": "The tests compare coordinates with exact numbers on domains where nothing is rounded; neighbours of different levels get their bounds by different sequences of halvings, and equality to the last bit has to be shown for all of them.", "anchors": ["src/Patches/FiniteVolume/FiniteVolumeNodeFactory.cpp: createChildNode", "src/Patches/FiniteVolume/FiniteVolumeNodeFactory.cpp: createParentNode", "src/Quadtree.hpp: Quadtree", "src/HPSAlgorithm.hpp: mergePatch_"]}
{"id": "C96", "title": "Refinement in double arithmetic makes no empty patches", "statement": "If the lower bounds of the domain are below the upper ones, every patch of every refinement has finite bounds, inside the domain, with the lower below the upper one, and the centres point() gives for its cells are in increasing order and strictly between the bounds.", "quantifier": "all domains with double bounds, all adaptive meshes, all numbers of cells", "why_tests_cant": "Whether the middle of two doubles is different from both depends on their binary exponents; the tests refine a few levels near the origin.", "anchors": ["src/Patches/FiniteVolume/FiniteVolumeNodeFactory.cpp: createChildNode", "src/Patches/FiniteVolume/FiniteVolumeGrid.cpp: point", "src/Patches/FiniteVolume/FiniteVolumeGrid.cpp: FiniteVolumeGrid"]}
{"id": "C97", "title": "Errors of coordinates do not grow with the mesh", "statement": "In double arithmetic the bounds of a patch are off by at most two roundoffs per level, and the centres and corner points of its cells by at most 18 and 12 more, relative to the largest coordinate of the domain; the number of patches and of cells does not enter. Nothing overflows if coordinates are below 2^1020.", "quantifier": "all domains with double bounds, all adaptive meshes, all numbers of cells per patch", "why_tests_cant": "An error bound for all doubles, levels and cell counts cannot be sampled; the tests allow a tolerance on a few grids.", "anchors": ["src/Patches/FiniteVolume/FiniteVolumeGrid.cpp: point", "src/Patches/FiniteVolume/FiniteVolumeGrid.cpp: FiniteVolumeGrid", "src/Patches/FiniteVolume/FiniteVolumeNodeFactory.cpp: createChildNode", "src/Mesh.hpp: setMeshFromQuadtree"]}
{"id": "C98", "title": "On dyadic domains all coordinates are exact", "statement": "If the ends of the domain are multiples of a power of two with few enough binary digits and the cells per side are a power of two, then bounds, spacing, cell centres and corner points of all patches are computed without any rounding error. For the unit square this holds as long as levels of refinement and doublings of cells are at most 50 together.", "quantifier": "all domains, depths and cell counts that meet the condition on the digits, all meshes", "why_tests_cant": "It is the reason why exact comparisons in tests succeed; that it holds for every level and cell, and up to where, needs a proof.", "anchors": ["src/Patches/FiniteVolume/FiniteVolumeGrid.cpp: point", "src/Patches/FiniteVolume/FiniteVolumeGrid.cpp: FiniteVolumeGrid", "src/Patches/FiniteVolume/FiniteVolumeNodeFactory.cpp: createChildNode", "src/Mesh.hpp: setMeshFromQuadtree"]}
{"id": "C99", "title": "Corner points of touching patches coincide in the mesh", "statement": "Where two patches touch, the corner points of cells the mesh stores for the output are the same numbers on both sides, so that a reader that merges equal points closes the mesh.", "quantifier": "all domains with double bounds, all numbers of cells, all meshes, all touching patches", "why_tests_cant": "The tests use powers of two of cells on the unit square, where nothing is rounded; the equality fails for example for 49 cells.", "anchors": ["src/Mesh.hpp: setMeshFromQuadtree", "src/Patches/FiniteVolume/FiniteVolumeGrid.cpp: FiniteVolumeGrid"]}
{"id": "C100", "title": "On adaptive meshes the result is the one and only solution of the composite discretisation", "statement": "After build, upwards and solve with given functions, the cell values on all patches together satisfy one system that can be written down without operators: on every patch the finite volume equations; on every interface one value and one derivative per cell of the coarser side, where finer sides take values interpolated from them and have derivatives whose means they are; on the boundary the prescribed values. No other cell values on this mesh satisfy it.", "quantifier": "all elliptic problems, loads and boundary functions, all adaptive meshes of any depth (2:1 balance not required), all patch sizes", "why_tests_cant": "The tests compare with known smooth solutions up to discretisation error, which hides whether the discrete equations at coarse-fine interfaces are the intended ones; that the recursive elimination solves the coupled system for every mesh, and that the system has no other solution, needs induction over the tree.", "anchors": ["src/HPSAlgorithm.hpp: buildStage", "src/HPSAlgorithm.hpp: upwardsStage", "src/HPSAlgorithm.hpp: solveStage", "src/HPSAlgorithm.hpp: mergePatch_", "src/HPSAlgorithm.hpp: applyS_", "src/HPSAlgorithm.hpp: coarsen_", "src/HPSAlgorithm.hpp: uncoarsen_"]}
{"id": "C101", "title": "Units, origin and the form of the equation do not matter", "statement": "Solving the same physical problem in other units of length, with another origin of the coordinates, with beta in other units, or after multiplying the equation by a function without zeros, on the mesh refined in the same way, gives the same values in all cells.", "quantifier": "all elliptic problems, loads and boundary values, all scale factors, shifts and multipliers, all adaptive meshes, all patch sizes from 3, all dense and sparse solvers", "why_tests_cant": "The tests run on fixed domains with fixed coefficients; a wrong power of the cell width or a coefficient evaluated at an unscaled point is only seen by comparing two runs, for all factors and meshes.", "anchors": ["src/Patches/FiniteVolume/FiniteVolumeSolver.cpp: solve", "src/HPSAlgorithm.hpp: buildStage", "src/HPSAlgorithm.hpp: upwardsStage", "src/HPSAlgorithm.hpp: solveStage"]}
{"id": "C102", "title": "Orientation does not matter", "statement": "Mirroring a problem with its mesh left to right, or exchanging the two coordinates (which generate all symmetries of the square), mirrors or exchanges the values in all cells and does nothing else, also across interfaces between coarse and fine patches.", "quantifier": "all elliptic problems, loads and boundary values, all adaptive meshes, all patch sizes from 3, all dense and sparse solvers", "why_tests_cant": "The sides, the quarters and the directions are handled by different lines of code (index sets, permutations, one-sided interpolation at the ends); a slip in one of them shows only on meshes and data without symmetry, for which the tests have no reference.", "anchors": ["src/HPSAlgorithm.hpp: mergePatch_", "src/HPSAlgorithm.hpp: createIndexSets_", "src/HPSAlgorithm.hpp: reorderOperators_", "src/HPSAlgorithm.hpp: coarsen_", "src/HPSAlgorithm.hpp: applyS_", "src/Patches/FiniteVolume/FiniteVolumeSolver.cpp: solve"]}
{"id": "C103", "title": "What is put into a distributed vector is there after assembly", "statement": "Every rank may call setValue and setValues at any indices of a distributed vector, its own or not, to insert or to add, in any number of rounds with assembly after each. After a round of inserting an entry has the value the ranks agree on, or the last value if one rank alone set it; after a round of adding it has grown by the sum of everything given for it on all ranks; entries nobody named, and negative indices, change nothing. A distributed vector made from a serial vector that all ranks have has its length and entries after assembly.", "quantifier": "all numbers of ranks, all lengths and distributions, all index vectors and values, all sequences of rounds, all orders in which PETSc may combine the values of the ranks", "why_tests_cant": "A test fixes the ranks, the distribution and one order of communication, and the repository has no test that reads a distributed vector back; entries set by several ranks or in several rounds depend on all of them.", "anchors": ["src/Vector.hpp: ParallelVector::setValue", "src/Vector.hpp: ParallelVector::setValues", "src/Vector.hpp: ParallelVector(MPI::Communicator, Vector<NumericalType>&)", "src/Vector.hpp: ParallelVector::beginAssembly"]}
{"id": "C104", "title": "The texts of patches and nodes can be read back", "statement": "str() of a patch lists, one per line and under its name, how often it was coarsened, its numbers of cells, its four bounds, and the sizes of its matrices and vectors: reading it back gives the counts and sizes exactly and the bounds within half a millionth, and patches that differ in any of these, bounds by more than a millionth, have different texts. The text of a node gives its path, level and ranks, and nodes put into a stream are one line each, in order.", "quantifier": "all patches with all grids and all sizes of matrices and vectors, all nodes, all lists of nodes, all streams", "why_tests_cant": "A test compares a few texts; that no two different patches share a text, whatever the digits of their numbers, is a statement about all pairs. The repository has no test of these texts.", "anchors": ["src/Patches/FiniteVolume/FiniteVolumePatch.cpp: FiniteVolumePatch::str", "src/QuadNode.hpp: Node::str", "src/QuadNode.hpp: operator<<(std::ostream&, const Node<T>&)"]}
{"id": "C105", "title": "Solving on leaves does not depend on what other ranks own", "statement": "The example program with the five-point leaf solver ends on all ranks however the leaves are dealt to them, with what it ends with when solving on a leaf involves no other rank; in particular when some rank owns more leaves than another.", "quantifier": "all meshes, all numbers of ranks and all ways to deal leaves to them, all equations and boundary data, all orders in which collective operations happen, all numbers of solves", "why_tests_cant": "A test runs one mesh on one number of ranks; whether some order of collective calls lets all ranks end is a statement about all executions, and a hang does not show up as a wrong value. The repository's tests of the solver run on one rank.", "anchors": ["src/Patches/FiniteVolume/FiniteVolumeSolver.cpp: FiniteVolumeSolver::solve", "src/Patches/FiniteVolume/FiniteVolumeSolver.cpp: FiniteVolumeSolver::buildD2N", "src/Patches/FiniteVolume/FiniteVolumeSolver.cpp: FiniteVolumeSolver::particularNeumannData", "src/HPSAlgorithm.hpp: HPSAlgorithm::buildStage, upwardsStage, solveStage", "examples/elliptic-single/main.cpp: main"]}
{"id": "C106", "title": "A leaf solve uses PETSc by its rules and leaves nothing behind", "statement": "Each solve on a leaf with the five-point solver makes only calls PETSc's manual allows (objects exist when used, matrices and vectors are assembled before use, values are not inserted and added without assembly in between), and when it returns there are as many PETSc objects as before, so memory does not grow with the number of solves.", "quantifier": "all grids, all numbers and orders of solves, any objects the process has from elsewhere", "why_tests_cant": "A test sees the returned values, which are right although objects are left; that no sequence of solves leaves any is a statement about all programs, and a leak shows only when memory runs out.", "anchors": ["src/Patches/FiniteVolume/FiniteVolumeSolver.cpp: FiniteVolumeSolver::solve"]}
{"id": "C107", "title": "The plot of a matrix shows where its entries are", "statement": "Plotting a matrix puts exactly one mark for every entry that is larger in size than the tolerance, with the columns of the matrix from left to right and its rows from top to bottom on some scale.", "quantifier": "all matrices of any shape (also wide, tall and empty), all tolerances", "why_tests_cant": "The result is a picture, which no unit test reads; and for matrices whose nonzero entries lie symmetrically to the diagonal, as in most trials, exchanging rows and columns makes no difference.", "anchors": ["src/PlotUtils.hpp: matplotlibcpp::matshow", "src/Matrix.hpp: Matrix::operator()"]}
{"id": "C108", "title": "The text of a grid can be read back", "statement": "str() of a grid is one line that gives, for x and for y, the bounds, the number of cells and the spacing: read back, the numbers of cells are exact, bounds and spacings within half a millionth, and the spacings are positive. Grids that differ in their numbers of cells, or in a bound by more than a millionth, have different texts.", "quantifier": "all grids with at least one cell in each direction, all bounds", "why_tests_cant": "A test compares a few texts; that no two different grids share a text, whatever the digits of their numbers, is a statement about all pairs. The repository has no test of this text.", "anchors": ["src/PatchGrid.hpp: PatchGrid::str", "src/Patches/FiniteVolume/FiniteVolumeGrid.cpp: FiniteVolumeGrid::FiniteVolumeGrid"]}
{"id": "C109", "title": "The name of a communicator tells its ranks", "statement": "A communicator made from a range of ranks of another has a name that starts with the name of the other and tells the range, so that of the communicators of a quadtree's nodes two with one name have the same ranks, and of communicators made within one another the name tells all ranges in order. A name that was set is the name that is there.", "quantifier": "all ranges of ranks, all depths, all names, all MPI libraries (whatever number of characters they keep)", "why_tests_cant": "MPI cuts names off at a length each library chooses, and a test has one library and a few names; only deep chains, or a library that keeps more than the code has room for, show what happens then.", "anchors": ["src/MPI.cpp: communicatorSubsetRange", "src/MPI.cpp: communicatorSetName", "src/MPI.cpp: communicatorGetName", "src/Quadtree.hpp: Quadtree::Quadtree", "examples/toybox/main.cpp: main"]}
{"id": "C110", "title": "The plots of the convergence study show what their axes say", "statement": "Built with matplotlib, the convergence study leaves three figures from the first rank and none from the others: for every patch size and both analyses one curve, named after the size and with its own colour, with one point per run at the effective resolution of that run. The heights are the quantities the vertical axes name: the largest error of the run, the time of its build stage, and the time of its solve stage.", "quantifier": "all problems, families of meshes, numbers of ranks, lists of patch sizes and levels, and clocks", "why_tests_cant": "A figure is not a value a test can compare with the runs, the plots are only compiled in with an optional library, and which run a point belongs to depends on loops that skip sizes and on timers that are started again; the repository has no test of the example.", "anchors": ["examples/elliptic-multiple/main.cpp: main", "examples/elliptic-multiple/main.cpp: solveEllipticViaHPS"]}
{"id": "C111", "title": "The plot of a grid shows its box, its boundary faces and its cells", "statement": "plot() of a grid always returns and draws exactly the parts asked for, in the formats asked for: the closed outline through the four corners; one mark at the centre of every boundary face, on the outline; one mark at the centre of every cell, inside the outline, no two at the same place; and the name in the middle. Two grids with the same full picture are the same grid.", "quantifier": "all grids with at least one cell in each direction on rectangles of positive width and height, all choices of parts, all names and colours", "why_tests_cant": "A picture is not a value a test can compare, and that there are neither missing nor coinciding marks for any number of cells and any bounds is a statement about all grids; the repository has no test of it.", "anchors": ["src/PatchGrid.hpp: PatchGrid::plot", "src/Patches/FiniteVolume/FiniteVolumeGrid.cpp: FiniteVolumeGrid::point"]}
