{"id": "C01", "title": "BinaryMatrix set/clear/read behaves like a Boolean matrix", "statement": "Starting from a freshly constructed (or resized) r x c BinaryMatrix, which reads all false, after any sequence of set(i,j)/clear(i,j) calls reading (i,j) returns the value most recently written to that coefficient and every other coefficient is unaffected; a call with an out-of-range index throws and changes nothing.", "quantifier": "all shapes r x c, all finite histories of set/clear calls, all coefficients", "why_tests_cant": "Histories and shapes are unbounded; aliasing between coefficients sharing a machine word can only be excluded by argument.", "anchors": ["fdaPDE/linear_algebra/binary_matrix.h: BinaryMatrix::set, clear, operator(), pack_of, resize"]}
{"id": "C02", "title": "Element-wise Boolean operators are pointwise, lazily and when materialised", "statement": "For equally sized a and b, (~a)(i,j), (a&b)(i,j), (a|b)(i,j), (a^b)(i,j) are the Boolean operations of the coefficients, both when the expression is read coefficient by coefficient and after it is assigned to a BinaryMatrix (which copies whole 64-bit packs), for arbitrarily nested expressions; a size mismatch throws.", "quantifier": "all shapes, all contents, all nested expressions", "why_tests_cant": "Depends on every shape and content (the packed representation has a different code path for each residue of the size modulo 64); tests use a handful of shapes.", "anchors": ["fdaPDE/linear_algebra/binary_matrix.h: BinMtxUnaryOp, BinMtxBinaryOp, BinaryMatrix(const BinMtxBase&), operator=, bitpack"]}
{"id": "C03", "title": "all() is true exactly when every coefficient is set", "statement": "m.all() returns true if and only if m(i,j) is true for every in-range (i,j).", "quantifier": "all shapes and contents", "why_tests_cant": "Depends on every shape and content (the packed representation has a different code path for each residue of the size modulo 64); tests use a handful of shapes.", "anchors": ["fdaPDE/linear_algebra/binary_matrix.h: BinMtxBase::all, linear_bitpack_visit, all_visitor"]}
{"id": "C04", "title": "any() is true exactly when some coefficient is set", "statement": "m.any() returns true if and only if m(i,j) is true for at least one in-range (i,j).", "quantifier": "all shapes and contents, including expressions such as ~m", "why_tests_cant": "Depends on every shape and content (the packed representation has a different code path for each residue of the size modulo 64); tests use a handful of shapes.", "anchors": ["fdaPDE/linear_algebra/binary_matrix.h: BinMtxBase::any, linear_bitpack_visit, any_visitor"]}
{"id": "C05", "title": "count() is the number of set coefficients", "statement": "m.count() equals the number of in-range pairs (i,j) with m(i,j) true.", "quantifier": "all shapes and contents", "why_tests_cant": "Depends on every shape and content (the packed representation has a different code path for each residue of the size modulo 64); tests use a handful of shapes.", "anchors": ["fdaPDE/linear_algebra/binary_matrix.h: BinMtxBase::count, linear_bit_visit, count_visitor"]}
{"id": "C06", "title": "Equality of binary matrices is equality of coefficients", "statement": "a == b is true if and only if a and b have the same shape and agree on every in-range coefficient, and a != b is its negation; the comparison is defined (no undefined shift) for every shape.", "quantifier": "all pairs of matrices", "why_tests_cant": "Depends on every shape and content (the packed representation has a different code path for each residue of the size modulo 64); tests use a handful of shapes.", "anchors": ["fdaPDE/linear_algebra/binary_matrix.h: operator==, operator!="]}
{"id": "C07", "title": "Blocks read the right coefficients, also when copied into a matrix", "statement": "b = m.block(r0,c0,h,w) satisfies b(i,j) = m(r0+i,c0+j) for i<h, j<w, and a BinaryMatrix constructed from b has exactly those coefficients.", "quantifier": "all matrices and all in-range blocks", "why_tests_cant": "Depends on every shape and content (the packed representation has a different code path for each residue of the size modulo 64); tests use a handful of shapes.", "anchors": ["fdaPDE/linear_algebra/binary_matrix.h: BinMtxBlock, row, col, block, bitpack"]}
{"id": "C08", "title": "Assigning to a block replaces its content", "statement": "After m.block(r0,c0,h,w) = x, m(r0+i,c0+j) = x(i,j) for i<h, j<w and every coefficient of m outside the block is unchanged.", "quantifier": "all matrices, in-range blocks and right-hand sides", "why_tests_cant": "Depends on every shape and content (the packed representation has a different code path for each residue of the size modulo 64); tests use a handful of shapes.", "anchors": ["fdaPDE/linear_algebra/binary_matrix.h: BinMtxBlock::operator="]}
{"id": "C09", "title": "Construction from a range fills the matrix in row-major order", "statement": "Constructing an r x c BinaryMatrix from a range of r*c Booleans gives m(i,j) equal to element i*c+j of the range.", "quantifier": "all shapes r x c, all ranges of length r*c", "why_tests_cant": "Depends on every shape and content (the packed representation has a different code path for each residue of the size modulo 64); tests use a handful of shapes.", "anchors": ["fdaPDE/linear_algebra/binary_matrix.h: BinaryMatrix(begin, end, rows, cols)"]}
{"id": "C10", "title": "repeat, reshape, which and select follow their index formulas", "statement": "m.repeat(a,b)(i,j) = m(i mod r, j mod c); m.reshaped(r',c') with r'c' = rc reads coefficients in row-major order; which(m) lists, in increasing order, exactly the row-major positions of true coefficients (equivalently of false ones for which(~m)).", "quantifier": "all shapes, contents and repetition factors", "why_tests_cant": "Depends on every shape and content (the packed representation has a different code path for each residue of the size modulo 64); tests use a handful of shapes.", "anchors": ["fdaPDE/linear_algebra/binary_matrix.h: BinMtxRepeatOp, BinMtxReshapedOp, which"]}
{"id": "C11", "title": "Depth-first and breadth-first iteration visit every node once in the right order", "statement": "Iterating a binary tree with the dfs iterator yields its preorder and with the bfs iterator its level order; both terminate and visit each node exactly once.", "quantifier": "all trees", "why_tests_cant": "Trees are unbounded in size and shape.", "anchors": ["fdaPDE/utils/data_structures/binary_tree.h: dfs_iterator, bfs_iterator"]}
{"id": "C12", "title": "Leaf iteration visits exactly the leaves", "statement": "Iterating the leaves of a non-empty tree yields exactly the nodes without children, once each, left to right.", "quantifier": "all non-empty trees", "why_tests_cant": "Trees are unbounded; the failing shape is a corner case (a tree made of its root only).", "anchors": ["fdaPDE/utils/data_structures/binary_tree.h: leaf_iterator"]}
{"id": "C13", "title": "A value pushed in a binary search tree is found again", "statement": "After any sequence of push operations on a binary search tree, find(x) returns a node holding x if x was pushed and the end iterator otherwise, without dereferencing a null pointer; in-order traversal is sorted and the size equals the number of pushes.", "quantifier": "all push histories and all searched keys", "why_tests_cant": "Every insertion order gives a different tree.", "anchors": ["fdaPDE/utils/data_structures/binary_tree.h: BinaryTree::push, BST::push, BST::find"]}
{"id": "C14", "title": "Erasing a node removes its subtree and nothing else", "statement": "erase(pos) removes exactly the nodes of the subtree rooted at pos; all other nodes are still reachable and counted.", "quantifier": "all trees and positions", "why_tests_cant": "Trees are unbounded in shape.", "anchors": ["fdaPDE/utils/data_structures/binary_tree.h: BinaryTree::erase, clear"]}
{"id": "C15", "title": "Copying a binary tree yields an equal, independent tree", "statement": "A copy-constructed or copy-assigned tree has the same shape and values as its source and the same size.", "quantifier": "all non-empty trees", "why_tests_cant": "Trees are unbounded in shape.", "anchors": ["fdaPDE/utils/data_structures/binary_tree.h: BinaryTree::clone_, copy constructor, operator="]}
{"id": "C16", "title": "KD-tree range search returns exactly the points in the box", "statement": "For a KDTree built over any non-empty set of points, range_search(query) returns the index of p if and only if every coordinate of p lies within the query box (bounds included).", "quantifier": "all dimensions, non-empty point sets and query boxes", "why_tests_cant": "The pruning rule must be right for every build order, dimension and query.", "anchors": ["fdaPDE/geometry/kd_tree.h: KDTree ctor, range_search"]}
{"id": "C17", "title": "KD-tree nearest neighbour search returns a nearest point", "statement": "For a KDTree over a non-empty set of points, nn_search(q) returns a point whose distance from q is minimal, and never dereferences a null pointer.", "quantifier": "all point sets and query points", "why_tests_cant": "Needs all relative positions of query and splitting planes.", "anchors": ["fdaPDE/geometry/kd_tree.h: nn_search"]}
{"id": "C18", "title": "Every edge of a planar triangulation is enumerated once", "statement": "For a 2D triangulation in which every pair of nodes is shared by at most two cells, the edge list contains each pair of vertices of some cell exactly once, with cell_to_edges giving, for each cell, the indices of its three edges.", "quantifier": "all cell tables of manifold triangulations", "why_tests_cant": "Holds for meshes of every size and numbering.", "anchors": ["fdaPDE/geometry/triangulation.h: Triangulation<2,N> constructor, edges, cell_to_edges"]}
{"id": "C19", "title": "Neighbour relations are symmetric and correct", "statement": "In a 2D manifold triangulation neighbors(c)(k) = d >= 0 holds exactly when d is the other cell containing the edge of c opposite to its k-th vertex, and then c appears among the neighbours of d; it is -1 exactly when that edge belongs to no other cell.", "quantifier": "all cell tables of manifold triangulations", "why_tests_cant": "Holds for meshes of every size and numbering.", "anchors": ["fdaPDE/geometry/triangulation.h: Triangulation<2,N> constructor, neighbors"]}
{"id": "C20", "title": "Boundary edges are those with exactly one incident cell", "statement": "In a 2D manifold triangulation an edge is reported on the boundary if and only if exactly one cell contains it, and edge_to_cells lists its one or two incident cells (-1 for the absent one).", "quantifier": "all cell tables of manifold triangulations", "why_tests_cant": "Holds for meshes of every size and numbering.", "anchors": ["fdaPDE/geometry/triangulation.h: boundary_edges, edge_to_cells, edge_iterator"]}
{"id": "C21", "title": "Boundary-node iteration yields exactly the boundary nodes", "statement": "Iterating from boundary_nodes_begin() to boundary_nodes_end() yields in increasing order exactly the nodes whose boundary flag is set.", "quantifier": "all boundary markings", "why_tests_cant": "Depends on the pattern of flags.", "anchors": ["fdaPDE/geometry/triangulation.h: boundary_node_iterator"]}
{"id": "C22", "title": "Face and edge iteration of a 3D triangulation is complete", "statement": "Iterating faces (or edges, or only those on the boundary) of a 3D triangulation yields every index passing the filter exactly once.", "quantifier": "all numbers of entities and filters", "why_tests_cant": "Depends on whether the last entities pass the filter.", "anchors": ["fdaPDE/geometry/triangulation.h: Triangulation<3,3>::iterator, edge_iterator, face_iterator, boundary_faces_begin"]}
{"id": "C23", "title": "Faces of a 3D triangulation are enumerated once and bound the right cells", "statement": "For a 3D triangulation in which every triple of nodes is shared by at most two cells, the face list contains each triple of vertices of some cell exactly once, neighbours across faces are symmetric and a face is marked on the boundary if and only if exactly one cell contains it.", "quantifier": "all cell tables of manifold 3D triangulations", "why_tests_cant": "Holds for meshes of every size and numbering.", "anchors": ["fdaPDE/geometry/triangulation.h: Triangulation<3,3> constructor"]}
{"id": "C24", "title": "Point location on an interval finds the containing segment", "statement": "For strictly increasing nodes x_0 < ... < x_n, locate(p) returns the index i with x_i <= p < x_{i+1} (the last segment for p = x_n) and -1 for p outside [x_0, x_n], always terminating and reading only existing nodes.", "quantifier": "all strictly increasing node vectors and all points", "why_tests_cant": "The binary search must terminate for every point, including shared end points.", "anchors": ["fdaPDE/geometry/interval.h: Triangulation<1,1>::locate"]}
{"id": "C25", "title": "Segments of an interval know their neighbours", "statement": "Cell i of an interval mesh with n cells spans nodes (i,i+1) and its neighbours are exactly the existing cells among i-1 and i+1; absent neighbours are -1.", "quantifier": "all node vectors with at least two nodes", "why_tests_cant": "Corner case: a single cell.", "anchors": ["fdaPDE/geometry/interval.h: Triangulation<1,1> constructor"]}
{"id": "C26", "title": "Linear network adjacency counts shared nodes", "statement": "In a linear network two distinct cells are adjacent if and only if they share a node, adjacency is symmetric, and a cell's neighbors() lists every adjacent cell without reading outside the stored tables.", "quantifier": "all cell tables", "why_tests_cant": "Networks are unbounded in size and degree.", "anchors": ["fdaPDE/geometry/linear_network.h: Triangulation<1,2> constructor, CellType::neighbors"]}
{"id": "C27", "title": "BlockVector views address disjoint consecutive segments", "statement": "In a BlockVector with n blocks of length m, writing block i changes exactly positions i*m..i*m+m-1 of the vector, reading block j != i is unaffected, and head/tail/multi-block views are concatenations of blocks.", "quantifier": "all n, m, contents and write histories", "why_tests_cant": "All sizes and histories.", "anchors": ["fdaPDE/utils/data_structures/block_vector.h"]}
{"id": "C28", "title": "BlockFrame returns what was inserted", "statement": "After any sequence of insert/remove operations get<T>(key) returns the block most recently inserted under key with that type, throws if key is absent, has_block and the column list agree with the stored keys, and all blocks have the same number of rows; inserting a block with a different number of rows throws.", "quantifier": "all histories of insertions and removals", "why_tests_cant": "Histories are unbounded.", "anchors": ["fdaPDE/utils/data_structures/block_frame.h: insert, get, remove, has_block, is_dirty"]}
{"id": "C29", "title": "extract_unique keeps the first occurrence of each distinct row", "statement": "extract_unique(key) returns the distinct rows of the block in order of first occurrence.", "quantifier": "all blocks", "why_tests_cant": "All sizes and duplicate patterns.", "anchors": ["fdaPDE/utils/data_structures/block_frame.h: extract_unique"]}
{"id": "C30", "title": "BlockFrame row views select the requested rows", "statement": "The view of rows [begin,end] (inclusive), head(end), tail(begin) or an arbitrary index list returns for every block exactly the requested rows in order; extracting a view yields a frame with those rows.", "quantifier": "all frames and all non-empty, in-range index lists", "why_tests_cant": "All sizes and index patterns.", "anchors": ["fdaPDE/utils/data_structures/block_frame.h: operator(), head, tail, BlockView::get, extract"]}
{"id": "C31", "title": "The concurrent queue is FIFO under every interleaving", "statement": "For every interleaving of push/emplace/pop/clear by any number of threads, popped elements come out in push order, no element is popped twice, none is invented, and pop reports failure exactly when the queue is empty.", "quantifier": "all numbers of threads and all schedules", "why_tests_cant": "Schedules cannot be enumerated by tests.", "anchors": ["fdaPDE/multithreading/ConcurrentQueue.h"]}
{"id": "C32", "title": "A task sent to the thread pool runs at most once", "statement": "In every execution each task passed to send_async starts at most once, and a task runs only if it was sent.", "quantifier": "all numbers of workers, tasks and schedules", "why_tests_cant": "Schedules cannot be enumerated by tests.", "anchors": ["fdaPDE/multithreading/ThreadPool.h: execute, send_async"]}
{"id": "C33", "title": "sync() returns only when all earlier tasks are finished", "statement": "When sync() returns, every task sent before the call has completed.", "quantifier": "all numbers of workers, tasks and schedules", "why_tests_cant": "A race window of a few instructions.", "anchors": ["fdaPDE/multithreading/ThreadPool.h: sync, execute"]}
{"id": "C34", "title": "shutdown() stops all workers and loses no accepted task", "statement": "After shutdown() returns all workers have exited, no task starts afterwards, and every task sent before shutdown has either run or is reported to its caller.", "quantifier": "all numbers of workers, tasks and schedules", "why_tests_cant": "Schedules cannot be enumerated by tests.", "anchors": ["fdaPDE/multithreading/ThreadPool.h: shutdown, execute"]}
{"id": "C35", "title": "Kronecker product coefficients and algebra", "statement": "Kronecker(A,B) has size (ra*rb) x (ca*cb) and coefficient A(i/rb, j/cb)*B(i mod rb, j mod cb), so that (A⊗B)(C⊗D) = (AC)⊗(BD) whenever the products are defined.", "quantifier": "all sizes and entries", "why_tests_cant": "All sizes.", "anchors": ["fdaPDE/linear_algebra/kronecker_product.h: KroneckerTensorProduct coeff"]}
{"id": "C36", "title": "Sparse Kronecker product enumerates exactly its non-zeros", "statement": "Iterating a column of the sparse Kronecker product visits, in increasing row order, exactly the rows (i*rb+k) for stored entries i of A's column and k of B's column with the product value; empty columns give an empty iteration.", "quantifier": "all sparse operands", "why_tests_cant": "All sparsity patterns.", "anchors": ["fdaPDE/linear_algebra/kronecker_product.h: evaluator InnerIterator"]}
{"id": "C37", "title": "SparseBlockMatrix coefficients come from the right block", "statement": "For an Rows x Cols block matrix with compatible block sizes, coeff(i,j) equals the coefficient of the block containing (i,j) at the position relative to that block; incompatible blocks make the constructor throw.", "quantifier": "all block shapes and indices", "why_tests_cant": "All block shapes (including empty blocks).", "anchors": ["fdaPDE/linear_algebra/sparse_block_matrix.h: constructor, coeff, innerBlockIndex, indexToBlockInner"]}
{"id": "C38", "title": "SparseBlockMatrix iteration agrees with coefficient access", "statement": "Iterating column j of a sparse block matrix visits each stored entry of the blocks in that block-column once, with the global row index at which coeff finds it.", "quantifier": "all block shapes and sparsity patterns", "why_tests_cant": "Needs at least three block rows of different heights.", "anchors": ["fdaPDE/linear_algebra/sparse_block_matrix.h: evaluator InnerIterator"]}
{"id": "C39", "title": "SMW solves the low-rank-updated system", "statement": "If A, C and C^{-1} + V A^{-1} U are invertible then SMW::solve(A, U, C^{-1}, V, b) returns x with (A + U C V) x = b.", "quantifier": "all sizes and entries", "why_tests_cant": "All matrices.", "anchors": ["fdaPDE/linear_algebra/smw.h: SMW::solve"]}
{"id": "C40", "title": "Lumping preserves row sums", "statement": "lump(A) is diagonal with entry i equal to the sum of row i of A, so lump(A)·1 = A·1; for sparse and dense input alike.", "quantifier": "all square matrices", "why_tests_cant": "All sizes.", "anchors": ["fdaPDE/linear_algebra/lumping.h"]}
{"id": "C41", "title": "combinations<K,N> lists every K-subset once", "statement": "combinations<K,N>() has binom(N,K) rows, each strictly increasing with entries below N, all distinct, in lexicographic order.", "quantifier": "all K <= N <= 12 (from N = 13 on the factorials overflow int and the call does not compile)", "why_tests_cant": "All K, N.", "anchors": ["fdaPDE/utils/combinatorics.h: combinations, ct_binomial_coefficient, ct_factorial"]}
{"id": "C42", "title": "Barycentric coordinates reconstruct the point", "statement": "For a non-degenerate simplex with vertices v_0..v_d and any point p of its affine hull, barycentric_coords(p) sums to one and sum_i lambda_i v_i = p; they are the unique such numbers, and the i-th vertex has coordinates e_i.", "quantifier": "all non-degenerate simplices and points", "why_tests_cant": "Continuum of inputs.", "anchors": ["fdaPDE/geometry/simplex.h: initialize, barycentric_coords"]}
{"id": "C43", "title": "Simplex containment matches convex combinations", "statement": "contains(p) reports OUTSIDE if and only if p is not a convex combination of the vertices (in exact arithmetic with zero tolerance), ON_VERTEX exactly at vertices.", "quantifier": "all non-degenerate simplices and points", "why_tests_cant": "Continuum of inputs.", "anchors": ["fdaPDE/geometry/simplex.h: contains"]}
{"id": "C44", "title": "The circumcenter is equidistant from the vertices", "statement": "circumcenter() of a non-degenerate simplex has the same distance from every vertex.", "quantifier": "all non-degenerate simplices", "why_tests_cant": "Continuum of inputs.", "anchors": ["fdaPDE/geometry/simplex.h: circumcenter, circumradius"]}
{"id": "C45", "title": "Projection on the nearest point of a simplex", "statement": "nearest(p) returns a point of the simplex at minimal distance from p.", "quantifier": "all simplices and points", "why_tests_cant": "Continuum of inputs.", "anchors": ["fdaPDE/geometry/simplex.h: nearest"]}
{"id": "C46", "title": "Hyperplane projection is orthogonal and idempotent", "statement": "project(x) lies on the hyperplane, x - project(x) is orthogonal to its directions, projecting twice equals projecting once, and eval(x) = 0 exactly for points of the hyperplane.", "quantifier": "all hyperplanes and points", "why_tests_cant": "Continuum of inputs.", "anchors": ["fdaPDE/geometry/hyperplane.h"]}
{"id": "C47", "title": "Voronoi diagram of an interval partitions it", "statement": "The Voronoi cells of a 1D mesh with nodes x_0<...<x_n are bounded by the midpoints, their measures sum to x_n - x_0 and locate(p) returns a node nearest to p.", "quantifier": "all strictly increasing node vectors and points", "why_tests_cant": "All sizes and points.", "anchors": ["fdaPDE/geometry/voronoi.h: Voronoi<Triangulation<1,1>>"]}
{"id": "C48", "title": "Point location by tree search returns a containing cell", "statement": "locate(p) returns a cell containing p whenever one exists and -1 otherwise; all_locate(p) returns all cells containing p.", "quantifier": "all meshes and points", "why_tests_cant": "All meshes, points and scaling factors.", "anchors": ["fdaPDE/geometry/tree_search.h: TreeSearch::locate, all_locate"]}
{"id": "C49", "title": "B-spline basis is a non-negative partition of unity", "statement": "For a SplineBasis of order R over strictly increasing knots, at every point of [u_0,u_n] all basis functions are >= 0 and they sum to 1.", "quantifier": "all orders R, knot vectors and points", "why_tests_cant": "Continuum of points; all orders.", "anchors": ["fdaPDE/splines/basis/spline.h: Spline::operator()", "fdaPDE/splines/basis/spline_basis.h: SplineBasis constructor"]}
{"id": "C50", "title": "B-splines have local support", "statement": "The i-th basis function of order R vanishes outside [knots[i], knots[i+R+1]], hence at most R+1 of them are non-zero at any point.", "quantifier": "all orders, knots and points", "why_tests_cant": "Continuum of points.", "anchors": ["fdaPDE/splines/basis/spline.h"]}
{"id": "C51", "title": "Spline derivative formula", "statement": "Within the interior of each knot span, derive<1>() of the i-th spline of order R is the derivative of its value.", "quantifier": "all orders R >= 1, knots and interior points", "why_tests_cant": "Continuum of points.", "anchors": ["fdaPDE/splines/basis/spline.h: derive"]}
{"id": "C52", "title": "Spline assembly integrates over the whole common support", "statement": "The spline assembler visits every pair of basis functions with overlapping support, integrates their product over every knot span of the overlap, and reads only existing basis functions and knots, for symmetric and non-symmetric operators.", "quantifier": "all orders, numbers of knots and operator kinds", "why_tests_cant": "All sizes.", "anchors": ["fdaPDE/splines/spline_assembler.h: discretize_operator"]}
{"id": "C53", "title": "The exponent table lists every monomial once", "statement": "ct_poly_exp<N,R>() has binom(N+R,R) rows, which are exactly the exponent vectors of total degree at most R in N variables, without repetition, starting with the constant monomial.", "quantifier": "all N >= 1 and R >= 0", "why_tests_cant": "All N, R.", "anchors": ["fdaPDE/finite_elements/basis/multivariate_polynomial.h: ct_poly_exp"]}
{"id": "C54", "title": "Polynomial evaluation and gradient agree with the polynomial", "statement": "MultivariatePolynomial with coefficients c evaluates to sum_m c_m x^{e_m} and derive()[i] evaluates to its partial derivative with respect to x_i, at every point including those with zero coordinates.", "quantifier": "all N, R, coefficients and points", "why_tests_cant": "Continuum of inputs.", "anchors": ["fdaPDE/finite_elements/basis/multivariate_polynomial.h: MonomialSum, MonomialProduct, PolynomialDerivative, ct_grad_exp"]}
{"id": "C55", "title": "Lagrangian basis is nodal and sums to one", "statement": "The i-th Lagrangian basis function is 1 at node i and 0 at the other nodes, the basis functions sum to 1 at every point and they reproduce every polynomial of degree <= R.", "quantifier": "all supported dimensions and orders, all points", "why_tests_cant": "Continuum of points.", "anchors": ["fdaPDE/finite_elements/basis/lagrangian_basis.h: LagrangianElement::compute_coefficients_"]}
{"id": "C56", "title": "Edge degrees of freedom sit on the edge they are associated with", "statement": "For second order elements, the reference node of local dof n_vertices + k is the midpoint of the k-th edge in the enumeration used to number the global dofs.", "quantifier": "all supported dimensions and all local edges", "why_tests_cant": "Consistency of two tables.", "anchors": ["fdaPDE/finite_elements/basis/lagrangian_basis.h: enumerate_dofs", "fdaPDE/finite_elements/basis/reference_element.h"]}
{"id": "C57", "title": "Second order dof numbering is a bijection with nodes and edges", "statement": "For order 2 the global dofs are numbered 0..n_nodes+n_edges-1, cells sharing an edge share the dof on it, different edges get different dofs, and a dof is on the boundary iff its node or edge is.", "quantifier": "all 2D manifold triangulations", "why_tests_cant": "All meshes.", "anchors": ["fdaPDE/finite_elements/basis/lagrangian_basis.h: enumerate_dofs"]}
{"id": "C58", "title": "Basis evaluation uses the dofs of the containing cell", "statement": "The pointwise evaluation matrix has in row i the values of the basis functions of the cell containing p_i in the columns of that cell's dofs (a zero row when p_i is outside), rows sum to one, and basis expansion operator()(c, locs) equals the evaluation matrix times c.", "quantifier": "all meshes, orders, coefficient vectors and locations", "why_tests_cant": "All meshes and points.", "anchors": ["fdaPDE/finite_elements/basis/lagrangian_basis.h: operator(), pointwise_evaluation, areal_evaluation"]}
{"id": "C59", "title": "Quadrature rules integrate polynomials of the documented degree", "statement": "Every quadrature table integrates each monomial up to its documented degree over the reference simplex up to the printed precision (absolute error below 1e-14), and the weights sum to one within that precision.", "quantifier": "all tables, all polynomials up to the degree", "why_tests_cant": "All polynomials.", "anchors": ["fdaPDE/utils/integration/integrator_tables.h"]}
{"id": "C60", "title": "Symmetric assembly equals full assembly", "statement": "For an operator flagged symmetric, the assembled matrix equals the one obtained by accumulating all local pairs, and it is symmetric.", "quantifier": "all meshes, dof tables and operators", "why_tests_cant": "All meshes and operators (including non-symmetric diffusion tensors).", "anchors": ["fdaPDE/finite_elements/fem_assembler.h: discretize_operator", "fdaPDE/finite_elements/operators/diffusion.h: is_symmetric"]}
{"id": "C61", "title": "Assembled matrix is the sum of local contributions", "statement": "Entry (p,q) of the discretization matrix is the sum over cells and local index pairs (i,j) with dofs (p,q) of the local integral, and the forcing vector entry p the corresponding sum; in particular it does not depend on the order of the cells.", "quantifier": "all meshes, dof tables, local integrals", "why_tests_cant": "All meshes.", "anchors": ["fdaPDE/finite_elements/fem_assembler.h: discretize_operator, discretize_forcing"]}
{"id": "C62", "title": "Dirichlet conditions are imposed on boundary dofs and only there", "statement": "set_dirichlet_bc replaces row d of the system by u_d = g_d exactly for the boundary dofs d, leaves every other row of the matrix and right-hand side unchanged, and applying it twice has the effect of applying it once.", "quantifier": "all boundary markings and systems", "why_tests_cant": "Depends on whether dof 0 is on the boundary.", "anchors": ["fdaPDE/finite_elements/solvers/fem_solver_base.h: boundary_dofs_iterator, set_dirichlet_bc"]}
{"id": "C63", "title": "The parabolic solver performs the implicit Euler recursion", "statement": "The columns of the computed solution satisfy u_0 = initial condition and (M/dt + A) u_{i+1} = M/dt u_i + f_{i+1} on non-boundary dofs, and u_{i+1} equals the boundary datum on boundary dofs.", "quantifier": "all systems, time grids and numbers of steps", "why_tests_cant": "Unbounded number of steps.", "anchors": ["fdaPDE/finite_elements/solvers/fem_linear_parabolic_solver.h: solve"]}
{"id": "C64", "title": "Grid search returns a grid point of minimal value", "statement": "Without early stopping Grid::optimize returns the first grid point with the smallest objective value and value() is that value; with a stopping callback it is minimal among the visited points.", "quantifier": "all non-empty grids, all objectives and callbacks", "why_tests_cant": "All objectives and grids.", "anchors": ["fdaPDE/optimization/grid.h: optimize"]}
{"id": "C65", "title": "Iterative optimizers respect their budget and report a consistent value", "statement": "GradientDescent, Newton and BFGS perform at most max_iter updates, return the last iterate, value() is the objective at the returned point, and if they stop early without a callback request the gradient norm at the returned point is at most tol.", "quantifier": "all objectives, starting points and parameters", "why_tests_cant": "All objectives; unbounded number of iterations.", "anchors": ["fdaPDE/optimization/gradient_descent.h", "fdaPDE/optimization/newton.h", "fdaPDE/optimization/bfgs.h"]}
{"id": "C66", "title": "BFGS returns the stationary point it reaches", "statement": "If BFGS stops because the gradient vanishes at the new iterate, the returned optimum is that stationary point.", "quantifier": "all objectives and starting points", "why_tests_cant": "Only happens when the gradient is exactly zero.", "anchors": ["fdaPDE/optimization/bfgs.h: optimize"]}
{"id": "C67", "title": "BFGS inverse Hessian approximation stays symmetric positive definite and satisfies the secant equation", "statement": "After each BFGS update with (dx·dg) > 0 the inverse Hessian approximation H is symmetric positive definite and H dg = dx.", "quantifier": "all dimensions, histories of updates", "why_tests_cant": "Unbounded histories.", "anchors": ["fdaPDE/optimization/bfgs.h: optimize"]}
{"id": "C68", "title": "Backtracking line search guarantees sufficient decrease", "statement": "When the backtracking callback returns for a descent direction, the step satisfies the Armijo condition, so the objective does not increase; gradient descent with backtracking therefore produces a non-increasing sequence of objective values.", "quantifier": "all objectives, starting points and parameters", "why_tests_cant": "All objectives.", "anchors": ["fdaPDE/optimization/callbacks/backtracking_line_search.h"]}
{"id": "C69", "title": "Wolfe line search returns a step satisfying both Wolfe conditions", "statement": "When the Wolfe callback returns, the selected step satisfies the sufficient decrease and the weak curvature condition, and during the search the bracket [alpha_min, alpha_max] contains the candidate.", "quantifier": "all objectives and parameters", "why_tests_cant": "All objectives; unbounded number of bisections.", "anchors": ["fdaPDE/optimization/callbacks/wolfe_line_search.h"]}
{"id": "C70", "title": "Finite-difference derivatives are exact on low-degree polynomials", "statement": "The numerical gradient is exact on polynomials of degree <= 2 per variable, the diagonal second derivative on degree <= 5, the mixed second derivative on bilinear/quadratic functions, for every step h != 0; the numerical Hessian is symmetric.", "quantifier": "all points, steps and polynomials of the given degree", "why_tests_cant": "Continuum of inputs.", "anchors": ["fdaPDE/fields/field_derivatives.h"]}
{"id": "C71", "title": "CSV line splitting is lossless", "statement": "split_string(line, sep) returns tokens that contain no separator and whose join with the separator is the line; it terminates on every input.", "quantifier": "all strings and non-empty separators", "why_tests_cant": "All strings.", "anchors": ["fdaPDE/utils/IO/csv_reader.h: split_string, remove_char"]}
{"id": "C72", "title": "Dense CSV parsing places every cell", "statement": "For a csv file with header of c+1 fields and n data lines each with c+1 fields, the parsed matrix is n x c with entry (i,j) the value of field j+1 of data line i (NaN for NA tokens).", "quantifier": "all well-formed files", "why_tests_cant": "All file sizes and contents.", "anchors": ["fdaPDE/utils/IO/csv_reader.h: parse_file<Dense>"]}
{"id": "C73", "title": "Sparse CSV parsing sums triplets at one-based positions", "statement": "For a csv file in sparse format, the parsed matrix has n_row = max row index, n_col = max column index, and entry (r-1,c-1) the sum of the values listed for (r,c); a header that does not have four fields throws.", "quantifier": "all well-formed files", "why_tests_cant": "All file sizes and contents.", "anchors": ["fdaPDE/utils/IO/csv_reader.h: parse_file<Sparse>"]}
{"id": "C74", "title": "Binary integers are decoded with the requested endianness", "statement": "read<T>(.., BigEndian) and read<T>(.., LittleEndian) return the value whose big/little-endian encoding is stored at the current position and advance by sizeof(T).", "quantifier": "all values and buffer positions", "why_tests_cant": "All 2^64 values.", "anchors": ["fdaPDE/utils/IO/shp_reader.h: read"]}
{"id": "C75", "title": "Shapefile records are decoded in full and in order", "statement": "Reading a well-formed shapefile body returns exactly the encoded records in order with their record numbers, points, rings and z/m data, and stops at the declared file length.", "quantifier": "all well-formed record sequences", "why_tests_cant": "All record counts and sizes.", "anchors": ["fdaPDE/utils/IO/shp_reader.h: read_into, sf_point_t, sf_multipoint_t, sf_polygon_t"]}
{"id": "C76", "title": "Iterating the rings of a polygon visits every point", "statement": "Concatenating the point ranges of all rings of a polygon record yields all its points.", "quantifier": "all polygons", "why_tests_cant": "All numbers and lengths of rings.", "anchors": ["fdaPDE/utils/IO/shp_reader.h: sf_polygon_t ring_begin/ring_end, ring_iterator"]}
{"id": "C77", "title": "DBF records are decoded column by column", "statement": "Reading a well-formed dbf file gives for each field the vector of the field's byte strings of all records, in order, whatever the declared field lengths (1..254); numeric columns are converted entry by entry.", "quantifier": "all well-formed dbf files", "why_tests_cant": "All field layouts.", "anchors": ["fdaPDE/utils/IO/shp_reader.h: dbf_reader, get_as"]}
{"id": "C78", "title": "Type-erased heap storage owns its object", "statement": "Under any sequence of construction, copy, move, assignment and destruction of heap-stored type-erased objects every held object is deleted exactly once, no deleted object is accessed, and a copy holds an equal but separate object.", "quantifier": "all operation histories", "why_tests_cant": "Histories and aliasing are unbounded.", "anchors": ["fdaPDE/utils/type_erasure.h: heap_storage, erase"]}
{"id": "C79", "title": "Type-erased calls dispatch to the right method", "statement": "For an erase<Storage, I1,...,In> object, calling the k-th method of interface Ij invokes the k-th function of Ij on the held object.", "quantifier": "all numbers of interfaces and methods", "why_tests_cant": "All interface lists.", "anchors": ["fdaPDE/utils/type_erasure.h: merge, init_vtable, offset_table_, invoke"]}
{"id": "C80", "title": "A moved-from type-erased object reports itself empty", "statement": "After moving from a type-erased object, the moved-from object converts to false (holds nothing callable).", "quantifier": "all histories", "why_tests_cant": "Histories are unbounded.", "anchors": ["fdaPDE/utils/type_erasure.h: erase(erase&&), operator bool"]}
{"id": "C81", "title": "Compile-time type-list utilities compute their set-theoretic meaning", "statement": "unique_types is true iff the list has no repetition; index_of returns the position of the type in a list without repetitions and -1 if absent; has_type, split_tuple, TypeListGet, merge and switch_type agree with list membership, take/drop, indexing, append and first true case.", "quantifier": "all type lists", "why_tests_cant": "All list lengths.", "anchors": ["fdaPDE/utils/traits.h", "fdaPDE/utils/type_erasure.h: get, merge, size"]}
{"id": "C82", "title": "Removing the time derivative leaves the remaining operator unchanged", "statement": "remove_operator<dT>() applied to a bilinear form L1 ± L2 yields a form whose weak form equals the original one with the contribution of dT set to zero.", "quantifier": "all operator expressions", "why_tests_cant": "All expression trees.", "anchors": ["fdaPDE/pde/differential_expressions.h: DifferentialBinOp::remove_operator"]}
{"id": "C83", "title": "Field expressions evaluate pointwise", "statement": "Arithmetic expressions over scalar, vector and matrix fields (+, -, *, /, negation, dot product, matrix-vector product) evaluate at every point to the same arithmetic on the values of the operands, and forwarding a quadrature index reaches every discretised operand of the expression.", "quantifier": "all expression trees and points", "why_tests_cant": "All expression trees.", "anchors": ["fdaPDE/fields/scalar_expressions.h", "fdaPDE/fields/vector_expressions.h", "fdaPDE/fields/matrix_expressions.h", "fdaPDE/fields/dot_product.h"]}
{"id": "C84", "title": "almost_equal is reflexive and symmetric", "statement": "almost_equal(a,b,eps) is reflexive for eps > 0, symmetric, and true exactly when |a-b| < eps * max(1, |a|, |b|).", "quantifier": "all reals", "why_tests_cant": "Continuum of inputs.", "anchors": ["fdaPDE/utils/symbols.h: almost_equal"]}
{"id": "C85", "title": "Spline evaluation matrix and coordinates", "statement": "For a spline basis, eval<pointwise_evaluation> returns the matrix whose entry (j,i) is the value of the i-th basis function at the j-th location and zero elsewhere, and dofs_coords returns one coordinate per basis function.", "quantifier": "all orders, knots and non-empty location lists", "why_tests_cant": "All sizes and points.", "anchors": ["fdaPDE/splines/basis/spline_basis.h: pointwise_evaluation, dofs_coords"]}
{"id": "C86", "title": "The standard quadrature rule is exact for the order's own products", "statement": "The rule selected for finite elements of order R integrates exactly polynomials of degree R+1, and products of two polynomials of degree R (the integrands of mass and reaction terms).", "quantifier": "all dimensions, orders and pairs of polynomials", "why_tests_cant": "All polynomials.", "anchors": ["fdaPDE/utils/integration/integrator_tables.h: standard_fem_quadrature_rule"]}
{"id": "C87", "title": "Integrators evaluate the quadrature sum they are documented to compute", "statement": "quadrature_nodes lists, cell by cell, the images of the reference nodes; integrating a field sampled at those nodes equals integrating the field itself; the weak form is forwarded the index of the node it is evaluated at; the integral over a mesh is the sum over its cells; and the integral over a cell or an interval of a polynomial within the degree of the rule is its exact integral up to the printed precision.", "quantifier": "all meshes, fields, bases and intervals", "why_tests_cant": "All meshes, fields and intervals.", "anchors": ["fdaPDE/utils/integration/integrator.h"]}
{"id": "C88", "title": "log1pexp approximates log(1 + exp(x)) to half a unit in the last place", "statement": "For every real x, log1pexp(x) differs from log(1 + exp(x)) by at most 2^-53 times log(1 + exp(x)), in exact arithmetic.", "quantifier": "all reals", "why_tests_cant": "Continuum of inputs, four branches.", "anchors": ["fdaPDE/utils/symbols.h: log1pexp"]}
{"id": "C89", "title": "Vectors can be used as keys of ordered maps", "statement": "s_vector_compare and d_vector_compare order vectors lexicographically: a strict order in which two vectors are equivalent only if they are equal.", "quantifier": "all pairs and triples of vectors without NaN", "why_tests_cant": "All lengths and entries.", "anchors": ["fdaPDE/utils/symbols.h: s_vector_compare, d_vector_compare"]}
{"id": "C90", "title": "A copied SparseLU is independent, and converts to true only when it can solve", "statement": "After any sequence of compute, copy and reset, solve uses the matrix most recently factorized into the variable or its source; the conversion to bool is true iff that factorization succeeded.", "quantifier": "all histories on any number of variables", "why_tests_cant": "Histories and aliasing are unbounded.", "anchors": ["fdaPDE/utils/symbols.h: SparseLU"]}
{"id": "C91", "title": "Assembled matrices represent the bilinear form of the operator", "statement": "For all coefficient vectors u, v the product v^T A u with the matrix assembled from an operator is the quadrature over the mesh of the weak form a(u_h, v_h) of the operator; in particular the matrix of the negated laplacian is symmetric, u^T A u is the Dirichlet energy of u_h and is not negative, and without reaction term constants are in the kernel.", "quantifier": "all operators with symmetric diffusion tensors or a transport term, meshes, bases, quadrature rules and coefficient vectors", "why_tests_cant": "All meshes and vectors.", "anchors": ["fdaPDE/finite_elements/fem_assembler.h: discretize_operator", "fdaPDE/finite_elements/operators/"]}
{"id": "C92", "title": "Mass matrices are positive semidefinite and sum to the measure of the domain", "statement": "For the mass matrix M of a Lagrangian basis of any supported dimension and order with its own quadrature rule, u^T M u >= 0 for all u, and the entries of M sum to the measure of the domain.", "quantifier": "all meshes, dimensions, orders and coefficient vectors", "why_tests_cant": "All meshes and vectors.", "anchors": ["fdaPDE/finite_elements/fem_assembler.h: discretize_operator", "fdaPDE/finite_elements/operators/reaction.h", "fdaPDE/utils/integration/integrator_tables.h"]}
{"id": "C93", "title": "Walking point location finds the cell of every point of the domain", "statement": "BarycentricWalk::locate, from whatever cell it starts, returns the id of a cell that contains the point if one exists and -1 otherwise.", "quantifier": "all meshes, points and starting cells", "why_tests_cant": "The start is random; meshes and points are unbounded.", "anchors": ["fdaPDE/geometry/walk_search.h: BarycentricWalk::locate"]}
{"id": "C94", "title": "clockwise_order sorts points clockwise around the centre", "statement": "For points in polar coordinates around the centre, the comparison is true iff the clockwise angle from the upward direction is smaller, or equal with larger distance; it is a strict total order, so sorting with it is well defined.", "quantifier": "all centres and points", "why_tests_cant": "Continuum of inputs.", "anchors": ["fdaPDE/geometry/utils.h: clockwise_order"]}
{"id": "C95", "title": "Planar Voronoi diagrams have the vertices of their definition, and locate returns the nearest site", "statement": "The cell of a site has as vertices the circumcenters of the triangles at the site, the projections of the circumcenters on the boundary edges at the site and the site itself if on the boundary, in clockwise order; locate returns the site nearest to every location inside of the mesh and -1 outside; contains(p) tells whether the cell contains p.", "quantifier": "all Delaunay meshes and locations", "why_tests_cant": "All meshes and locations.", "anchors": ["fdaPDE/geometry/voronoi.h: Voronoi<Triangulation<2, 2>>"]}
{"id": "C96", "title": "Measure and edges of planar Voronoi cells", "statement": "measure() of a cell is the area of the polygon with its vertices: the sum of the areas of the triangles joining a point to the sides when these turn in one direction around it, independent of the origin; edges() lists the consecutive vertices cyclically.", "quantifier": "all cells", "why_tests_cant": "All polygons.", "anchors": ["fdaPDE/geometry/voronoi.h: VoronoiCell::measure, VoronoiCell::edges"]}
{"id": "C97", "title": "Edge tables of 3D triangulations", "statement": "edges() of a tetrahedral mesh lists every edge of the mesh exactly once, face_to_edges() gives the three edges of every face, edge_to_cells() the cells around every edge, every cell has six distinct edges, and an edge is on the boundary iff it is an edge of a boundary face.", "quantifier": "all tetrahedral meshes", "why_tests_cant": "All meshes.", "anchors": ["fdaPDE/geometry/triangulation.h: Triangulation<3,3>, edges, face_to_edges, edge_to_cells", "fdaPDE/geometry/tetrahedron.h: Tetrahedron"]}
{"id": "C98", "title": "Cells on the boundary", "statement": "on_boundary() of a triangle or tetrahedron is true iff one of its edges or faces is on the boundary of the mesh.", "quantifier": "all meshes and cells", "why_tests_cant": "All meshes.", "anchors": ["fdaPDE/geometry/triangle.h: on_boundary", "fdaPDE/geometry/tetrahedron.h: on_boundary"]}
{"id": "C99", "title": "surface() is the boundary of a 3D triangulation", "statement": "surface() returns the triangular mesh whose nodes are the nodes of the boundary faces, each once, and whose cells are the boundary faces.", "quantifier": "all tetrahedral meshes", "why_tests_cant": "All meshes.", "anchors": ["fdaPDE/geometry/triangulation.h: surface"]}
{"id": "C100", "title": "Projection on a mesh", "statement": "project(points, Exact) returns for every point the nearest point of the mesh; without the tag it returns an approximation of it, and in both cases points of the mesh are not moved.", "quantifier": "all meshes and points", "why_tests_cant": "Continuum of points, all meshes.", "anchors": ["fdaPDE/geometry/project.h: Projection"]}
{"id": "C101", "title": "Factorized sparse approximate inverse", "statement": "FSPAI::compute on a symmetric positive definite matrix A gives a lower triangular factor L with positive diagonal such that L^T A L has unit diagonal and A L vanishes on the pattern of L below the diagonal; every column maximises the squared diagonal entry over the energy among vectors with its pattern; enlarging the pattern to the full triangle (more steps, more entries per step, smaller tolerance) gives L L^T = A^-1.", "quantifier": "all symmetric positive definite matrices, alpha, beta, epsilon and histories of calls", "why_tests_cant": "All matrices and parameters.", "anchors": ["fdaPDE/linear_algebra/fspai.h: FSPAI::compute, getL, getInverse"]}
{"id": "C102", "title": "init and solve compute the Galerkin solution", "statement": "After init the matrices of the solver represent the bilinear form of the operator and the L2 product, and block i of the right-hand side represents the load functional of column i of the forcing. solve() returns a finite element function that takes the boundary data on the boundary dofs and satisfies a(u, v) = (f, v) for every test function v; for a parabolic problem every column satisfies ((u' - u)/dt, v) + a(u', v) = (f', v).", "quantifier": "all operators with symmetric diffusion tensors or a transport term, meshes, bases, quadrature rules, forcings, boundary data and initial conditions", "why_tests_cant": "All meshes, operators and data.", "anchors": ["fdaPDE/finite_elements/solvers/fem_solver_base.h: init, set_dirichlet_bc", "fdaPDE/finite_elements/solvers/fem_linear_elliptic_solver.h: solve", "fdaPDE/finite_elements/solvers/fem_linear_parabolic_solver.h: solve", "fdaPDE/pde/pde.h: PDE"]}
{"id": "C103", "title": "Elliptic problems are solved, uniquely, by the function of least energy", "statement": "On a connected mesh of non-degenerate cells with a boundary, for an elliptic operator (negated laplacian or diffusion with positive definite tensor, plus a non-negative reaction), solve() succeeds, the result is the only discrete solution, and when the operator is symmetric it has the least energy a(v, v)/2 - (f, v) among all functions with the same boundary values.", "quantifier": "all connected meshes, elliptic operators and data", "why_tests_cant": "All meshes, operators and data.", "anchors": ["fdaPDE/finite_elements/solvers/fem_linear_elliptic_solver.h: solve", "fdaPDE/finite_elements/operators/", "fdaPDE/pde/pde.h: PDE::solve"]}
{"id": "C104", "title": "The time stepping of parabolic problems is unconditionally stable", "statement": "For a parabolic problem whose form is not negative, every positive time step gives a non-singular system, and without forcing and with zero boundary data the L2 norm of the solution never increases from one instant to the next.", "quantifier": "all meshes, non-negative operators, time steps, numbers of steps and initial conditions", "why_tests_cant": "All time steps, numbers of steps and meshes.", "anchors": ["fdaPDE/finite_elements/solvers/fem_linear_parabolic_solver.h: solve", "fdaPDE/pde/pde.h: PDE::solve"]}
{"id": "C105", "title": "The solver on spline spaces", "statement": "init() of a spline problem makes the stiffness and mass matrices represent the bilinear form of the operator and the L2 product of splines, the matrix of the bilaplacian being that of the products of second derivatives; the basis on the reference interval is the image of the basis on the domain; solve() then computes the Galerkin solution with the given forcing and boundary data, and dofs_coords() has one row for every basis function.", "quantifier": "all node sequences, orders, quadrature rules, operators and coefficient vectors", "why_tests_cant": "All knots, orders and coefficients.", "anchors": ["fdaPDE/splines/solvers/spline_solver_base.h: SplineSolverBase", "fdaPDE/splines/solvers/spline_linear_elliptic_solver.h: solve", "fdaPDE/splines/operators/", "fdaPDE/pde/pde.h: eval_basis"]}
{"id": "C106", "title": "Shared and non-owning storage of type-erased objects", "statement": "With shared storage copies of a wrapper refer to the same object, a change made through one is seen through all, and the object is destroyed exactly when the last wrapper referring to it goes, for every history of constructions, copies, moves, (self-)assignments and destructions. With non-owning storage a wrapper and its copies refer to the very object they were made from, and never create, change or destroy it by themselves.", "quantifier": "all histories of operations", "why_tests_cant": "All histories.", "anchors": ["fdaPDE/utils/type_erasure.h: shared_storage, non_owning_storage, erase"]}
{"id": "C107", "title": "Convergence of the optimizers", "statement": "On a function with curvature at most L that is bounded below, gradient descent with a fixed step below 2/L, or with the backtracking line search and any initial step, never increases the objective and ends with a gradient of norm at most tol after a number of iterations bounded in terms of f(x0) - inf f and tol^2; on a strongly convex function the distance from the minimum decreases geometrically and the returned value is within tol^2/(2 mu) of it. Newton's method with step one finds the stationary point of a quadratic function in one iteration, and near a stationary point with invertible and Lipschitz continuous hessian it converges quadratically.", "quantifier": "all smooth objectives, starting points, steps, tolerances and iteration bounds", "why_tests_cant": "All objectives and starting points.", "anchors": ["fdaPDE/optimization/gradient_descent.h: optimize", "fdaPDE/optimization/newton.h: optimize", "fdaPDE/optimization/callbacks/backtracking_line_search.h: BacktrackingLineSearch"]}
{"id": "C108", "title": "Measures of cells and integrals over them are Lebesgue measures and integrals", "statement": "measure() of a segment, triangle or tetrahedron of full dimension is the Lebesgue measure of the convex hull of its vertices, also when it is degenerate; the measure of a triangle in space is the area of the plane triangles with sides of the same length and that of a segment the distance of its ends. The measures of the cells of a mesh sum to the measure of the domain. The integral over a cell, or over a mesh, of a polynomial within the degree of the quadrature rule is its Lebesgue integral up to the rounding of the printed rule.", "quantifier": "all cells, meshes with disjoint interiors, polynomials and rules", "why_tests_cant": "Continuum of cells and polynomials.", "anchors": ["fdaPDE/geometry/simplex.h: Simplex::initialize, measure", "fdaPDE/utils/integration/integrator.h: integrate_cell, integrate"]}
{"id": "C109", "title": "The time stepping of parabolic problems converges with order one", "statement": "If the initial condition is the initial value of the solution of the problem discretised in space only, and the boundary data and the forcing are those of the instants, the solution computed at the i-th instant differs from it, in the L2 norm, by at most half the elapsed time, times the time step, times a bound on the second derivative in time of the solution.", "quantifier": "all meshes, non-negative operators, time steps, numbers of steps and solutions twice differentiable in time", "why_tests_cant": "All time steps, numbers of steps, meshes and solutions.", "anchors": ["fdaPDE/finite_elements/solvers/fem_linear_parabolic_solver.h: solve", "fdaPDE/pde/pde.h: PDE::solve"]}
{"id": "C110", "title": "Affine solutions are reproduced by first-order elements", "statement": "With first-order elements on a conforming mesh, for an operator with constant diffusion and any transport and reaction terms, if the boundary data and the forcing are those of an affine function of the coordinates the computed solution is that function at every node (the patch test), whatever the shape and the size of the cells.", "quantifier": "all conforming meshes of intervals, triangles and tetrahedra, constant diffusion tensors, transport and reaction fields, affine functions", "why_tests_cant": "All meshes and coefficients.", "anchors": ["fdaPDE/finite_elements/solvers/fem_linear_elliptic_solver.h: solve", "fdaPDE/finite_elements/solvers/fem_solver_base.h: init, set_dirichlet_bc", "fdaPDE/pde/pde.h: PDE::solve"]}
{"id": "C111", "title": "Maximum principle of the computed solution", "statement": "With first-order elements on intervals, or on triangles without obtuse angles, the solution of a diffusion problem is not negative at any node when forcing and boundary data are not negative, and without forcing it lies between the least and the greatest of the boundary data; more generally when the gradients of distinct local functions make angles that are not acute in the metric of the diffusion tensor.", "quantifier": "all meshes of that kind, forcing terms and boundary data", "why_tests_cant": "All meshes and data.", "anchors": ["fdaPDE/finite_elements/solvers/fem_linear_elliptic_solver.h: solve", "fdaPDE/finite_elements/solvers/fem_solver_base.h: init, set_dirichlet_bc", "fdaPDE/pde/pde.h: PDE::solve"]}
{"id": "C112", "title": "Finite element solutions converge with order one", "statement": "Solving the Poisson problem -laplace(u) = f with first-order elements gives a discrete solution whose gradient is at distance (in the mean square over the domain) at most (N+1) M h^2 / (2 rho) times the square root of the measure of the domain from the gradient of the exact solution, up to the error of the quadrature of the forcing, which is at most a constant times h for a Lipschitz forcing; here h is the longest edge of the mesh, rho the shortest height and M a bound of the second derivatives of u. In particular the error is halved when a mesh of constant shape is refined by halving. The discrete solution is the best one among all the discrete functions with its boundary values.", "quantifier": "all meshes of intervals, triangles and tetrahedra, all exact solutions with bounded second derivatives, all forcings and boundary data", "why_tests_cant": "a test compares the error with one manufactured solution on a few meshes; the order of convergence is a statement about all solutions and an infinite sequence of meshes", "anchors": ["fdaPDE/pde/pde.h: PDE::init, solve", "fdaPDE/finite_elements/fem_assembler.h: discretize_operator, discretize_forcing", "fdaPDE/finite_elements/solvers/fem_linear_elliptic_solver.h: solve", "fdaPDE/finite_elements/basis/lagrangian_basis.h"]}
{"id": "C113", "title": "Views and assignments of binary matrices of every compile-time shape", "statement": "row(i), col(j), block, topRows, bottomRows, leftCols and rightCols of a binary matrix or vector are views of the coefficients they name, and throw if they do not fit; set and clear through a block write the coefficient they name if it is in the block, and throw otherwise; construction and assignment from a dense matrix or from a binary expression give a matrix with the coefficients of the source whatever it held before, and sources of a shape that does not fit are rejected.", "quantifier": "all compile-time shapes (static and dynamic), sizes, contents, indices and sources", "why_tests_cant": "the shapes, contents and indices are unbounded, and what is left in the storage before the assignment is not under the control of a test", "anchors": ["fdaPDE/linear_algebra/binary_matrix.h: BinaryMatrix (constructors, operator=, resize), BinMtxBlock (constructors, set, clear), BinMtxBase (row, col, block, topRows, bottomRows, leftCols, rightCols)"]}
{"id": "C114", "title": "Hash functions of pairs, arrays and matrices", "statement": "pair_hash, std_array_hash and matrix_hash depend on the elements of the key in order and on nothing else, so that equal keys have equal hashes; keys that differ only in the last element do not collide when std::hash of the elements does not.", "quantifier": "all keys of every length and all hash functions of the elements", "why_tests_cant": "all pairs of keys of unbounded length", "anchors": ["fdaPDE/utils/symbols.h: pair_hash, matrix_hash, std_container_hash, std_array_hash"]}
{"id": "C115", "title": "Iterators of meshes move in both directions", "statement": "The iterators over cells go from cell 0 to the last cell with ++, back with --, it + i and it - i refer to the i-th cell after and before it and leave it unchanged; on a 3D mesh, iterating over all the faces or all the edges visits each of them without reading outside the stored data, and -- undoes ++.", "quantifier": "every mesh size, position of the iterator, jump, marker vector and number of faces and edges", "why_tests_cant": "Tests iterate forwards over small meshes, where all the reads fall in one 64-bit pack and the reads past the end are not seen.", "anchors": ["fdaPDE/geometry/utils.h: index_based_iterator", "fdaPDE/geometry/triangulation.h: TriangulationBase::cell_iterator, Triangulation<3,3>::iterator, edge_iterator, face_iterator, boundary_face_iterator"]}
{"id": "C116", "title": "Uniform intervals and the boundary of one-dimensional meshes", "statement": "The mesh of [a, b] with n cells has the nodes a + i (b - a) / n, starts at a and ends at b; locate gives the number of whole cells between a and the point, -1 outside [a, b]; boundary() marks the first and the last node only, in agreement with is_node_on_boundary, and on_boundary() holds for the first and the last cell only. A linear network stores the range of its coordinates.", "quantifier": "every interval, number of cells, point and network", "why_tests_cant": "The tests build one interval with a fixed number of cells and query points inside it; no test builds a linear network.", "anchors": ["fdaPDE/geometry/interval.h: Triangulation<1,1>::Triangulation, locate, boundary, is_node_on_boundary", "fdaPDE/geometry/segment.h: Segment::Segment, on_boundary", "fdaPDE/geometry/linear_network.h: Triangulation<1,2>::Triangulation"]}
{"id": "C117", "title": "Any history of calls of a PDE object", "statement": "Whatever was called before, init followed by solve solves the problem given by the operator and the forcing set last before the init and by the boundary data (and the initial condition) set last before the solve: earlier systems, solutions and boundary conditions leave no trace, solving again changes nothing, and before the first init solve throws and changes nothing.", "quantifier": "every sequence of calls of set_forcing, set_differential_operator, set_dirichlet_bc, set_initial_condition, init and solve, for every mesh, operator and data", "why_tests_cant": "Each test calls the setters, init and solve once and in one order; reuse of an object and its stale states are never exercised, and the number of histories is infinite.", "anchors": ["fdaPDE/pde/pde.h: PDE::set_forcing, set_differential_operator, set_dirichlet_bc, set_initial_condition, init, solve, solution", "fdaPDE/finite_elements/solvers/fem_solver_base.h: init, set_dirichlet_bc", "fdaPDE/finite_elements/solvers/fem_linear_elliptic_solver.h: solve", "fdaPDE/finite_elements/solvers/fem_linear_parabolic_solver.h: solve"]}
{"id": "C118", "title": "Opening and printing a shapefile folder", "statement": "A ShapeFile built from the path of a folder reads the .shp and .dbf files named after the last component of the path, whatever the path and whether or not it ends with a slash; a .prj file, whatever its content, gives the name of the coordinate system or none, and never prevents the opening; printing shows the kind of the records, the size of the file in bytes, the number of records, the bounding box and all the fields.", "quantifier": "every path, content of the three files and table", "why_tests_cant": "The tests open a few fixed folders whose files all have the usual form; no test prints a shapefile or opens one with an unusual path or projection file.", "anchors": ["fdaPDE/utils/IO/shp_reader.h: ShapeFile::ShapeFile, operator<<, field_descriptors"]}
{"id": "C119", "title": "Fields whose dimension is fixed at run time", "statement": "An arithmetic expression over fields of n variables, with n given at run time, can be written exactly when all its fields have the same number of variables and throws otherwise; it is again a field of n variables, evaluates at every point with n coordinates to the pointwise value, refuses other points, can be stored and combined further, and its gradient and Hessian are the central differences with the step set on it. The same holds for vector and matrix fields: sums, differences, multiples, negations, dot products and products of a matrix with a vector.", "quantifier": "every expression, number of variables, number of components, step and point", "why_tests_cant": "The tests evaluate a handful of expressions of fields of two to four variables; expressions are unbounded, and the combinations in which the sizes are lost are not exercised.", "anchors": ["fdaPDE/fields/scalar_expressions.h: ScalarExpr, ScalarBinOp, ScalarUnOp, ScalarNegationOp, Scalar", "fdaPDE/fields/scalar_field.h: ScalarField, ConstantField", "fdaPDE/fields/vector_expressions.h: VectorExpr, VectorBinOp, VectorNegationOp", "fdaPDE/fields/vector_field.h: VectorField", "fdaPDE/fields/dot_product.h: DotProduct", "fdaPDE/fields/matrix_expressions.h: MatrixExpr, MatrixVectorProduct", "fdaPDE/fields/field_derivatives.h"]}
{"id": "C120", "title": "Coefficients of an operator during assembly", "statement": "For every differential operator built from laplacian, diffusion, transport, reaction and time derivative terms with constant coefficients or coefficient fields, the assembled matrix is the one of the bilinear form whose coefficients at node k of cell c are the values of the coefficient fields there (row num_nodes * c + k of sampled data): no value is left over from nodes, cells or pairs of functions visited before, and the terms are combined as written.", "quantifier": "every operator expression, coefficient expression and data, mesh, table of degrees of freedom, quadrature rule and space dimension", "why_tests_cant": "The tests assemble four or five fixed operators on the unit square; the weak form is a mutable expression tree shared by all cells, so a stale coefficient shows up only for particular orders of visits and combinations of coefficients.", "anchors": ["fdaPDE/finite_elements/fem_assembler.h: Assembler::discretize_operator", "fdaPDE/finite_elements/operators/laplacian.h, diffusion.h, advection.h, reaction.h, dt.h: integrate, is_space_varying", "fdaPDE/pde/differential_expressions.h: DifferentialBinOp, DifferentialScalar, DifferentialNegateOp", "fdaPDE/utils/integration/integrator.h: integrate_weak_form", "fdaPDE/fields/field_ptrs.h: ScalarPtr, VectorPtr, MatrixPtr"]}
{"id": "C121", "title": "Tasks, sync and shutdown of the thread pool make progress", "statement": "If the scheduler is fair (a thread that can make a step again and again makes a step again and again), then every task sent to a pool with at least one worker that is never shut down is eventually executed to the end, every call of sync() made by the only client thread eventually returns, and every call of shutdown() eventually returns.", "quantifier": "every number of workers and clients, infinite fair schedule, spurious wake-ups included, and history of calls", "why_tests_cant": "Liveness is a statement about infinite executions: a test that hangs or passes shows one schedule, and a lost wake-up appears only in particular interleavings.", "anchors": ["fdaPDE/multithreading/ThreadPool.h: ThreadPool::execute, send_async, sync, shutdown"]}
{"id": "C122", "title": "The matrices of the spline solver are true integrals", "statement": "After init(), for any two coefficient vectors u and v, v' * stiff * u is the exact integral over the whole knot interval of the weak form of the operator applied to the two splines, and v' * mass * u is the exact integral of their product; the quadrature rule the solver selects by default is exact for the chosen spline order.", "quantifier": "all spline orders, all knot vectors, all operators with polynomial coefficients, all coefficient vectors", "why_tests_cant": "Exactness for every order and knot vector is a statement on polynomials of unbounded degree; tests compare a few matrices with stored numbers.", "anchors": ["fdaPDE/splines/solvers/spline_solver_base.h: SplineSolverBase::init, integrator_", "fdaPDE/splines/spline_assembler.h: SplineAssembler", "fdaPDE/utils/integration/integrator.h: Integrator<SPLINE, 1, Order>"]}
{"id": "C123", "title": "A vector of coefficients is one continuous function on the mesh", "statement": "On a mesh whose cells are proper simplices that meet in common nodes, edges or faces, every vector of coefficients defines one continuous function on the domain: on each cell it is a polynomial of the order of the space, at the coordinates reported for the degrees of freedom it takes the values of the coefficients, and the evaluation matrix at some locations times the coefficients is the value of this function at the locations, whichever of the cells that contain a location is found. Polynomials up to the order of the space are reproduced from their values at the coordinates of the degrees of freedom. The coordinates of the degrees of freedom are the nodes, then the midpoints of the edges, whichever cell they are computed from.", "quantifier": "all conforming meshes of segments, triangles and tetrahedra in any embedding dimension at order one, of triangles at order two; all coefficients; all locations in the domain; all choices of containing cells", "why_tests_cant": "A test evaluates a few functions at a few points of one mesh. Continuity across every edge of every mesh needs the numbering of the dofs, the basis functions and the maps of the cells to agree for all local orders of the nodes.", "anchors": ["fdaPDE/finite_elements/basis/lagrangian_basis.h: LagrangianBasis::eval, dofs_coords, enumerate_dofs", "fdaPDE/geometry/simplex.h: invJ"]}
{"id": "C124", "title": "Location requests on mesh objects", "statement": "Whatever meshes a program constructs, copies, assigns, moves, moves into each other and destroys, a locate(points) or node_patch(id) made on a mesh answers for the mesh that object currently holds: for each point -1 if it is outside of the domain and a cell containing it otherwise, and for a vertex exactly the cells having it as vertex.", "quantifier": "all sequences of constructions, copies, assignments, moves, destructions and requests, all proper triangulations, all points and vertices, any tie-breaking and hash order in the search", "why_tests_cant": "the result depends on the history of the objects (the search structure is built lazily and remembers the address of the mesh), and a test exercises one history; reading freed memory may go unnoticed", "anchors": ["fdaPDE/geometry/triangulation.h:Triangulation::locate", "fdaPDE/geometry/triangulation.h:Triangulation::node_patch", "fdaPDE/geometry/tree_search.h:TreeSearch"]}
{"id": "C125", "title": "Edges and faces of cells", "statement": "The edges and faces reached through a cell of a mesh are its edges and faces: the union of the boundary cells of a simplex is its topological boundary; edge(j) of a triangle and face(j) of a tetrahedron show the points of boundary cell j, list as adjacent cells the cell itself and the one neighbour beyond, and are on the boundary exactly if there is no such neighbour; the edges of a face are its boundary cells; the six edges of a tetrahedron join each two of its vertices and list exactly the cells having both; the unit simplex has the origin and the unit vectors as vertices.", "quantifier": "all simplices of any dimension, all manifold meshes of triangles and tetrahedra of any size with any node coordinates, all cells and local indices, any iteration order of the hash sets", "why_tests_cant": "the handles combine four tables filled in one pass over the mesh with a permutation enumeration of the local vertices; a test compares a few handles on a few meshes", "anchors": ["fdaPDE/geometry/simplex.h:Simplex::boundary_begin", "fdaPDE/geometry/simplex.h:Simplex::Unit", "fdaPDE/geometry/triangle.h:Triangle::edge", "fdaPDE/geometry/tetrahedron.h:Tetrahedron::face", "fdaPDE/geometry/tetrahedron.h:Tetrahedron::edge"]}
{"id": "C126", "title": "Wrapped PDE problems", "statement": "A problem behind the type-erased wrapper behaves as the problem itself: every call of the wrapper is the call of the member function with that name on the held problem, with the same result, exception and effect, in every program that makes, copies, assigns and moves wrapped problems of any types; copies are independent; calls of setters, init and solve through the wrapper leave exactly the problem the same direct calls leave; an empty wrapper throws.", "quantifier": "all programs with any number of wrapped problems of any types, all sequences of calls, whatever the member functions do", "why_tests_cant": "the dispatch is by position in a table and by unchecked casts of function pointers; a test exercises a few calls of one type, and a wrong cast may go unnoticed", "anchors": ["fdaPDE/pde/pde.h:PDE__", "fdaPDE/pde/pde.h:make_pde", "fdaPDE/utils/type_erasure.h:invoke"]}
{"id": "C127", "title": "Splines reproduce polynomials and determine their coefficients", "statement": "Every polynomial of degree up to the order of a spline basis has an expansion in the basis which equals it at every point between the first and the last knot; the identity has as coefficients the averages of consecutive knots. An expansion takes values between its smallest and largest coefficient, its values at the end knots are its first and last coefficient, and two expansions that agree between two consecutive knots have the same coefficients for all functions active there, so that an expansion determines its coefficients.", "quantifier": "all orders, all increasing knot vectors, all coefficients and all points between the first and the last knot", "why_tests_cant": "tests evaluate a few splines at a few points; exactness on a whole polynomial space and uniqueness of coefficients are statements about all functions and points", "anchors": ["fdaPDE/splines/basis/spline.h:Spline", "fdaPDE/splines/basis/spline_basis.h:SplineBasis"]}
{"id": "C128", "title": "Splines are smooth across their knots", "statement": "A basis function or an expansion of order R has R - 1 continuous derivatives on the whole interval between the first and the last knot, the inner knots and the two ends included, and the k-th derivative object of a basis function evaluates to the k-th derivative at every point of the interval for k < R; up to k = R it is the right derivative of the previous one. The number of derivatives cannot be improved.", "quantifier": "all orders, all increasing knot vectors, all basis functions, all points of the interval", "why_tests_cant": "continuity and differentiability are limits, which sampling cannot establish, and the knots where they may fail are isolated points", "anchors": ["fdaPDE/splines/basis/spline.h:derive", "fdaPDE/splines/basis/spline.h:operator()"]}
{"id": "C129", "title": "Definite matrices of spline problems", "statement": "The mass matrix of the spline solver is positive definite, and the penalty matrix of the (negated) bilaplacian is positive semidefinite and vanishes exactly on affine functions, so that penalized least squares with at least two different observed locations has a unique minimizer.", "quantifier": "all orders, increasing knot vectors, coefficient vectors, locations and positive smoothing parameters", "why_tests_cant": "definiteness quantifies over all coefficient vectors, and it depends on how many quadrature nodes a span has relative to the order and the number of knots", "anchors": ["fdaPDE/splines/solvers/spline_solver_base.h:init", "fdaPDE/splines/spline_assembler.h:discretize_operator", "fdaPDE/utils/integration/integrator.h:integrate"]}
{"id": "C130", "title": "Printing a binary matrix shows its coefficients and selection keeps a sparse pattern", "statement": "Sending a binary matrix expression to a stream appends one line of 0/1 characters per row, separated by line feeds, so that the text determines shape and coefficients; for a matrix without rows nothing is appended. Selecting a sparse matrix through a mask keeps its stored positions and order, keeps the values where the mask is true and zeroes the others; a shape mismatch throws.", "quantifier": "every well formed expression, every stream content, every sparse matrix", "why_tests_cant": "A test prints a few small matrices; the claim is about all shapes, including the one with no rows, and all expressions.", "anchors": ["fdaPDE/linear_algebra/binary_matrix.h: operator<<, select"]}
{"id": "C131", "title": "Problems on meshes are solved", "statement": "On a mesh whose cells are proper, different, meet only in common faces and cover a connected domain, with every node in a cell, an elliptic problem with first order elements (intervals, triangles, tetrahedra, networks, surfaces) or second order elements (triangles) is assembled and solved without error, and what comes out is the unique solution of the discrete variational problem. In full dimension at most two cells share a facet, and if the nodes of the boundary are marked, affine solutions are computed exactly; without obtuse angles the discrete maximum principle holds.", "quantifier": "all meshes of that kind with any number of cells, all elliptic operators with symmetric tensors or a transport term, all data", "why_tests_cant": "tests solve problems on a few meshes shipped with the library; that the hypotheses of the theory follow from the geometry of the mesh is a statement about all meshes", "anchors": ["fdaPDE/finite_elements/solvers/fem_solver_base.h:init", "fdaPDE/finite_elements/fem_assembler.h:discretize_operator", "fdaPDE/finite_elements/basis/lagrangian_basis.h:enumerate_dofs", "fdaPDE/geometry/simplex.h:initialize"]}
{"id": "C132", "title": "First order elements converge to the exact solution of Poisson's equation on every mesh", "statement": "Let u be a function with continuous second derivatives on a domain meshed by segments, triangles or tetrahedra (cells proper and meeting in common faces, domain connected, boundary nodes marked). A PDE object with operator -Laplacian, first order elements, the values of -div grad u at the quadrature nodes as forcing and those of u at the boundary nodes as Dirichlet data is solved, and the piecewise affine function with the returned values at the nodes differs from u, in the mean square of the gradient and of the values, by at most a constant times the length of the longest edge. The constant depends on the domain, on the derivatives of u and on the ratio between edges and heights of the cells, not on the mesh.", "quantifier": "every domain, every mesh of it (number of cells, positions of nodes and numbering), every smooth solution, dimensions 1, 2 and 3", "why_tests_cant": "convergence is a statement about all meshes of all sizes; tests look at a few refinements of one domain with one solution and compare with a tolerance", "anchors": ["fdaPDE/pde/pde.h:init", "fdaPDE/pde/pde.h:solve", "fdaPDE/finite_elements/solvers/fem_solver_base.h:init", "fdaPDE/finite_elements/solvers/fem_linear_elliptic_solver.h:solve", "fdaPDE/finite_elements/fem_assembler.h:discretize_forcing", "fdaPDE/utils/integration/integrator_tables.h"]}
{"id": "C133", "title": "BFGS with the Wolfe line search finds the minimum of every uniformly convex objective", "statement": "For every objective whose curvature lies between two positive constants, from every starting point and for every admissible choice of the parameters of the line search, optimize() of BFGS with WolfeLineSearch returns: each line search ends, the distance of the objective from its minimum is multiplied at each iteration, on average, by a factor less than one which depends on the two constants and on the parameters only, the number of iterations is at most logarithmic in the tolerance, and at the returned point the norm of the gradient is at most the tolerance. Likewise GradientDescent with BacktrackingLineSearch returns a point where the gradient is at most the tolerance, for every objective with bounded curvature which is bounded below.", "quantifier": "every objective (dimension, values, gradient) with curvature between two constants, every starting point, tolerance, number of iterations and parameters of the searches", "why_tests_cant": "the rate is a property of the product of all the updates of the approximate Hessian along runs of any length; tests run a few objectives from one point and look at the last iterate", "anchors": ["fdaPDE/optimization/bfgs.h:optimize", "fdaPDE/optimization/callbacks/wolfe_line_search.h:pre_update_step", "fdaPDE/optimization/gradient_descent.h:optimize", "fdaPDE/optimization/callbacks/backtracking_line_search.h:pre_update_step"]}
{"id": "C134", "title": "Spline values computed in floating point have small relative error, whatever the knots", "statement": "For all knots whose last span is not shorter than the tolerance, all orders and all points of the interval, the value which operator() of a spline returns when each operation is rounded is never negative, is zero exactly where the exact value is, and differs from it by a relative error of at most 6R u / (1 - 6R u), u being the unit roundoff, however uneven the knots are; the basis sums to one up to that error; outside the interval the values are exactly zero; an expansion has an error bounded by its largest coefficient; derivatives have an error bounded by the same quantity times the sum of the absolute values of their terms.", "quantifier": "all knots, orders, points, coefficients and every rounding that is monotone, odd and of bounded relative error, in particular rounding to nearest in double precision", "why_tests_cant": "the error of a recursion is bounded over all arguments by following each rounding, while tests compare a few values with a tolerance", "anchors": ["fdaPDE/splines/basis/spline.h:operator()", "fdaPDE/splines/basis/spline.h:derive", "fdaPDE/splines/basis/spline_basis.h:SplineBasis"]}
{"id": "C135", "title": "Rounding does not make point location lose the cell which contains a point", "statement": "For every mesh with coordinates in doubles and every point, the box search done in rounded arithmetic (double precision without overflow and underflow) still returns every cell whose bounding box contains the point: no cell is lost however the scaling to the unit cube is rounded. On meshes of full dimension, if the rounded barycentric coordinates of the point in the cells which hold it have an error of at most the tolerance of the code, then locate answers -1 only for points in no cell, and a cell it returns has exact barycentric coordinates which are not below zero by more than the tolerance plus that error.", "quantifier": "all meshes which are not flat, all points, all contents of the search tree, all stored inverses of the Jacobians", "why_tests_cant": "a point is lost only if roundings of the two bounds disagree in the last bit, which no test hits on purpose", "anchors": ["fdaPDE/geometry/tree_search.h:TreeSearch", "fdaPDE/geometry/tree_search.h:locate", "fdaPDE/geometry/simplex.h:barycentric_coords", "fdaPDE/geometry/simplex.h:contains"]}
{"id": "C136", "title": "Integrals computed in floating point are accurate to a number of roundings", "statement": "For every mesh, quadrature rule and integrand, the integral which the integrator returns when each operation and each weight is rounded differs from the exact quadrature sum by at most k u / (1 - k u) times the sum of the absolute values of the terms, k being the number of cells plus that of the nodes plus three; for integrands and weights which are not negative this is a bound of the relative error and the result is never negative; for polynomials within the degree of the rule the result on a cell is the exact integral up to rounding, to the error of the values of the integrand and to that of the digits of the table. The same holds of the integrator of splines on an interval.", "quantifier": "all numbers of cells, measures, rules, integrands, values of the integrand with any error, and every rounding of bounded relative error", "why_tests_cant": "a bound over all meshes and integrands; tests look at a few integrals with a tolerance", "anchors": ["fdaPDE/utils/integration/integrator.h:integrate_cell", "fdaPDE/utils/integration/integrator.h:integrate"]}
{"id": "C137", "title": "Binary matrices of every size an int can count", "statement": "Reading, writing, assembling and visiting a binary matrix (all, any, count, which) never overflows the 32-bit integers in which the code counts rows, columns, coefficients and words, for every matrix whose number of coefficients is representable in an int: the results are those of unbounded integers.", "quantifier": "all matrices and expressions with fewer than 2^31 coefficients, all positions", "why_tests_cant": "a matrix of the critical sizes takes 256 MB and is in no test; the overflow is undefined behaviour and may go unnoticed", "anchors": ["fdaPDE/linear_algebra/binary_matrix.h:BinaryMatrix", "fdaPDE/linear_algebra/binary_matrix.h:which", "fdaPDE/linear_algebra/binary_matrix.h:count", "fdaPDE/linear_algebra/binary_matrix.h:any", "fdaPDE/linear_algebra/binary_matrix.h:all"]}
{"id": "C138", "title": "The time stepping converges to the solution of the heat equation on every mesh and for every time step", "statement": "Let u(t, x) be a function with continuous second derivatives in space and Lipschitz derivative in time on a domain meshed by segments, triangles or tetrahedra (cells proper and meeting in common faces, domain connected, boundary nodes marked). A PDE object with operator dt - Laplacian, first order elements, the values of u' - div grad u at the quadrature nodes as forcing, those of u at the boundary nodes at each instant as Dirichlet data and those of u at the nodes as initial condition is solved, and at each instant the piecewise affine function with the returned values at the nodes differs from u, in mean square, by at most a constant times the sum of the time step and of the length of the longest edge. The constant depends on the domain, on the elapsed time, on the derivatives of u and on the ratio between edges and heights of the cells, not on the mesh, on the time step or on their ratio.", "quantifier": "every domain, every mesh of it (number of cells, positions of nodes and numbering), every time step and number of steps, every smooth solution, dimensions 1, 2 and 3", "why_tests_cant": "convergence is a statement about all meshes and all time steps together; tests look at one mesh with a few steps", "anchors": ["fdaPDE/pde/pde.h:init", "fdaPDE/pde/pde.h:solve", "fdaPDE/finite_elements/solvers/fem_linear_parabolic_solver.h:solve", "fdaPDE/finite_elements/solvers/fem_solver_base.h:init", "fdaPDE/finite_elements/fem_assembler.h:discretize_forcing"]}
{"id": "C139", "title": "First order elements converge for problems with variable diffusion, transport and reaction", "statement": "Let u be a function with continuous second derivatives on a domain meshed by segments, triangles or tetrahedra (cells proper and meeting in common faces, domain connected, boundary nodes marked), and let diffusion tensors A(x) (uniformly positive; symmetric if there is no transport term), transport vectors b(x) and reactions c(x) be given, with the diffusion dominating the transport and the negative part of the reaction, and A grad u differentiable. A PDE object with operator -diffusion(A) + advection(b) + reaction(c) whose coefficients carry the values at the quadrature nodes, first order elements, the values of -div(A grad u) + b.grad u + c u at the quadrature nodes as forcing and those of u at the boundary nodes as Dirichlet data is solved, and the piecewise affine function with the returned values at the nodes differs from u, in mean square and in mean square of the gradient, by at most a constant times the length of the longest edge. The constant depends on the domain, on the bounds of the coefficients and of the derivatives of u and A grad u and on the ratio between edges and heights of the cells, not on the mesh.", "quantifier": "every domain, every mesh of it (number of cells, positions of nodes and numbering), all coefficients within the bounds, every smooth solution, dimensions 1, 2 and 3", "why_tests_cant": "convergence is a statement about all meshes together and about all coefficient fields; tests look at one mesh and at constant coefficients", "anchors": ["fdaPDE/pde/pde.h:init", "fdaPDE/pde/pde.h:solve", "fdaPDE/finite_elements/solvers/fem_linear_elliptic_solver.h:solve", "fdaPDE/finite_elements/fem_assembler.h:discretize_operator", "fdaPDE/finite_elements/operators/diffusion.h:integrate", "fdaPDE/finite_elements/operators/advection.h:integrate", "fdaPDE/finite_elements/operators/reaction.h:integrate"]}
{"id": "C140", "title": "Dof 0 is always treated as a boundary dof", "statement": "For every problem, forcing, boundary data, time domain, initial condition and linear solver, init followed by solve has exactly the same outcome as on the problem in which dof 0 is marked as boundary too. So for every marking solve returns the solution that takes the given data at dof 0 and at the marked dofs; this is the solution of the problem posed exactly when the value given at dof 0 is the one of that solution, and the convergence for the Poisson equation, for variable coefficients and for the heat equation holds for every numbering of the nodes when the exact value is given at node 0.", "quantifier": "every problem, marking of the dofs, data, time domain and linear solver; every mesh and numbering for the convergence", "why_tests_cant": "the tests number a boundary node first; whether an interior node 0 changes the answer depends on the whole boundary data and cannot be seen on such meshes", "anchors": ["fdaPDE/finite_elements/solvers/fem_solver_base.h:boundary_dofs_iterator", "fdaPDE/finite_elements/solvers/fem_solver_base.h:set_dirichlet_bc", "fdaPDE/pde/pde.h:solve"]}
{"id": "C141", "title": "A block matrix behaves as a dense matrix under every history of writes", "statement": "Let a SparseBlockMatrix be built from blocks with compatible sizes. After any sequence of assignments through coeffRef(i, j), block(r, c) and block(r, c).coeffRef(a, b), including attempts at positions outside, which throw and change nothing, rows() and cols() are the sums of the heights and widths, coeff(i, j) is the last value written at (i, j) by any of these ways (or the initial one) and throws outside, and block(r, c) is the corresponding part. Replacing a block by a matrix of another size is detected or changes the sizes; a default constructed matrix can be filled block by block.", "quantifier": "all numbers of block rows and columns, block sizes (also empty blocks), coefficients and histories of writes of any length", "why_tests_cant": "histories of writes through three interfaces are unbounded; the tests read a matrix once after construction", "anchors": ["fdaPDE/linear_algebra/sparse_block_matrix.h:SparseBlockMatrix", "fdaPDE/linear_algebra/sparse_block_matrix.h:block", "fdaPDE/linear_algebra/sparse_block_matrix.h:coeffRef", "fdaPDE/linear_algebra/sparse_block_matrix.h:coeff"]}
{"id": "C142", "title": "The time stepping converges for equations with variable diffusion, transport and reaction of any size", "statement": "Let u(t, x) be smooth in space and time on a domain meshed by segments, triangles or tetrahedra (cells proper and meeting in common faces, domain connected, boundary nodes marked), and let diffusion tensors A(x) (uniformly positive), transport vectors b(x) and reactions c(x) be given, bounded, with no relation between their sizes. A PDE object with operator dt - diffusion(A) + advection(b) + reaction(c) whose coefficients carry the values at the quadrature nodes, first order elements, equally spaced instants, the values of u_t - div(A grad u) + b.grad u + c u as forcing, those of u at the boundary nodes as Dirichlet data and those of u at the nodes as initial condition is solved, provided the time step is at most half the inverse of the rate of growth |b|^2/(2 alpha) + c^-; at every instant the piecewise affine function with the returned values differs from u in mean square by at most a constant times (time step + longest edge), and the sum over the instants of the time step times the mean square distance of the gradients is at most a constant times the sum of the squares. The constant depends on the domain, the horizon and the bounds, not on the mesh and the number of steps, and there is no relation between the time step and the size of the cells.", "quantifier": "every domain, every mesh of it, every number of instants and time step within the bound, all coefficients within the bounds, every smooth solution, dimensions 1, 2 and 3", "why_tests_cant": "stability and convergence of the scheme concern all meshes and time steps together and all coefficient fields; tests look at one mesh, one step and constant coefficients", "anchors": ["fdaPDE/pde/pde.h:init", "fdaPDE/pde/pde.h:solve", "fdaPDE/finite_elements/solvers/fem_linear_parabolic_solver.h:solve", "fdaPDE/finite_elements/fem_assembler.h:discretize_operator", "fdaPDE/finite_elements/operators/diffusion.h:integrate", "fdaPDE/finite_elements/operators/advection.h:integrate", "fdaPDE/finite_elements/operators/reaction.h:integrate", "fdaPDE/finite_elements/operators/dt.h:integrate"]}
{"id": "C143", "title": "Second order elements converge with order two, whatever the mesh of triangles", "statement": "Let u be smooth (third derivatives continuous, second derivatives Lipschitz on the cells, Laplacian with Lipschitz gradient) on a plane domain meshed by triangles that are not degenerate and meet in common faces, with connected domain and marked boundary nodes. A PDE object with operator minus Laplacian and second order elements, given the values of -(Laplacian of u) at the quadrature nodes as forcing and those of u at the boundary dofs (nodes and midpoints of boundary edges) as Dirichlet data, is solved; the returned values are those of a function that is a polynomial of degree at most two on each cell, at the points the library reports for the dofs, and the mean square errors of its gradient and of its values with respect to u are at most a constant times h^2 + 10^-14, where h is the longest edge; the constant depends on the domain, the bounds of the derivatives and the ratio between edges and heights of the cells, not on the mesh. The term 10^-14 comes from the quadrature rule, whose nodes and weights are stored with that many digits.", "quantifier": "every plane domain and every mesh of triangles of it, of any size and numbering, every smooth solution", "why_tests_cant": "an order of convergence concerns all meshes at once; a test measures the error on a few meshes and for one solution", "anchors": ["fdaPDE/pde/pde.h:init", "fdaPDE/pde/pde.h:solve", "fdaPDE/finite_elements/basis/lagrangian_basis.h:enumerate_dofs", "fdaPDE/finite_elements/basis/lagrangian_basis.h:dofs_coords", "fdaPDE/finite_elements/fem_assembler.h:discretize_operator", "fdaPDE/finite_elements/fem_assembler.h:discretize_forcing", "fdaPDE/finite_elements/operators/laplacian.h:integrate", "fdaPDE/utils/integration/integrator_tables.h:IntegratorTable", "fdaPDE/finite_elements/solvers/fem_linear_elliptic_solver.h:solve"]}
{"id": "C144", "title": "Programs on several trees: value semantics and memory safety", "statement": "In every program that constructs BinaryTree objects, inserts with push, push_left/push_right and emplace, copies, moves, assigns, clears and destroys them, no deleted or null node is ever read, written or deleted; each tree holds at each point the value it would hold if trees were plain values (a copy equals its source and neither changes with the other, a moved tree takes the value and leaves the source empty); every node that is still allocated belongs to exactly one tree and is reached in exactly one way; and when all the trees are destroyed every node has been deleted exactly once.", "quantifier": "every finite program over any number of trees, of any size, in any order of operations", "why_tests_cant": "ownership of nodes is a property of all histories; a test runs a few and does not see a leak or a shared node", "anchors": ["fdaPDE/utils/data_structures/binary_tree.h:clone_", "fdaPDE/utils/data_structures/binary_tree.h:move_", "fdaPDE/utils/data_structures/binary_tree.h:erase", "fdaPDE/utils/data_structures/binary_tree.h:clear", "fdaPDE/utils/data_structures/binary_tree.h:push", "fdaPDE/utils/data_structures/binary_tree.h:push_", "fdaPDE/utils/data_structures/binary_tree.h:~BinaryTree"]}
{"id": "C145", "title": "Programs that use the thread pool have no data races", "statement": "If the clients of a thread pool read what a task wrote only after waiting for its future, do not use sync(), and shut the pool down once, after waiting for the futures of all the tasks sent, then no two conflicting accesses to the same memory (the queue, the flags and states of the pool, the data the callables refer to, the data the tasks write) are unordered by happens-before, so that the program has no undefined behaviour. In any program, what a client wrote before sending a task is visible to the worker that runs it, and what the task wrote is visible to whoever has waited for its future.", "quantifier": "every number of workers and clients, every number of tasks, every schedule, including spurious wake-ups", "why_tests_cant": "a data race need not show in any number of runs; a test observes a few schedules on one processor", "anchors": ["fdaPDE/multithreading/ThreadPool.h:execute", "fdaPDE/multithreading/ThreadPool.h:send_async", "fdaPDE/multithreading/ThreadPool.h:sync", "fdaPDE/multithreading/ThreadPool.h:shutdown", "fdaPDE/multithreading/ConcurrentQueue.h:push", "fdaPDE/multithreading/ConcurrentQueue.h:pop", "fdaPDE/multithreading/ConcurrentQueue.h:empty"]}
{"id": "C146", "title": "The error of an elliptic solve with a linear solver that rounds", "statement": "If the linear solver is not exact but leaves in every equation a residual of at most ε times the sum of the absolute values of the terms of the equation, the elliptic solve with first order elements still succeeds, the boundary values are met up to ε times their size, and the mean square errors of the returned function and of its gradient are at most twice those of the exact solve plus a term proportional to (ε times the largest nodal value, divided by the square of the size of the cells) squared: the discretization error dominates as long as ε is small against the cube of the size of the cells.", "quantifier": "all meshes of full dimension in one, two and three dimensions with bounded shape, all smooth solutions and coefficients as in C139, all ε ≥ 0, all linear solvers with that backward error", "why_tests_cant": "no linear solver in floating point is exact; a test sees the rounding of one matrix", "anchors": ["fdaPDE/finite_elements/solvers/fem_linear_elliptic_solver.h:solve", "fdaPDE/finite_elements/solvers/fem_solver_base.h:set_dirichlet_bc", "fdaPDE/finite_elements/solvers/fem_solver_base.h:init", "fdaPDE/pde/pde.h:solve"]}
{"id": "C147", "title": "The error of the time stepping with a linear solver that rounds", "statement": "If the linear solver used at every time step is not exact but leaves in every equation a residual of at most ε times the sum of the absolute values of the terms of the equation, the time dependent solve with first order elements still succeeds, every instant satisfies the boundary values and the equation of the implicit Euler step from the computed values of the instant before up to that residual, and at every instant the mean square errors are at most twice those of the time stepping with an exact solver plus a term proportional to the square of ε times the largest nodal value times (the inverse of the square of the size of the cells plus the inverse of the time step): the rounding errors of the single steps do not build up without bound when the number of steps grows.", "quantifier": "all meshes of full dimension in one, two and three dimensions with bounded shape, all smooth evolutions and coefficients as in C142, all time steps below the stability threshold and all numbers of steps up to a horizon, all ε ≥ 0, all linear solvers with that backward error", "why_tests_cant": "no linear solver in floating point is exact; a test sees the rounding of one history of steps", "anchors": ["fdaPDE/finite_elements/solvers/fem_linear_parabolic_solver.h:solve", "fdaPDE/finite_elements/solvers/fem_solver_base.h:set_dirichlet_bc", "fdaPDE/finite_elements/solvers/fem_solver_base.h:init", "fdaPDE/pde/pde.h:solve"]}
{"id": "C148", "title": "The line searches in floating point", "statement": "In IEEE arithmetic, with underflow, overflow and NaN, the backtracking line search with a reduction factor of at most one half returns after at most 2100 reductions whatever the objective, the point, the direction and the order of summation of the scalar product, and the accepted step does not increase the computed objective; gradient descent with it therefore always returns. The Wolfe line search returns as well.", "quantifier": "all objectives and gradients on doubles (discontinuous, infinite and NaN values included), all dimensions, points, directions, parameters and summation orders", "why_tests_cant": "termination for every function; the cases that matter are at the ends of the exponent range and around the minimum where the objective is flat in floating point", "anchors": ["fdaPDE/optimization/callbacks/backtracking_line_search.h:pre_update_step", "fdaPDE/optimization/callbacks/wolfe_line_search.h:pre_update_step", "fdaPDE/optimization/gradient_descent.h:optimize"]}
{"id": "C149", "title": "The optimizers on objectives that are not numbers somewhere", "statement": "If the objective is NaN at some points, the grid search returns the smallest of the values that are numbers, and an iterative optimizer that starts from a point where the objective is a number returns a point where it is a number that is not greater; in particular rounding errors never make the result of gradient descent worse than the starting point.", "quantifier": "all objectives on doubles, all grids, starting points, gradients, tolerances and numbers of iterations", "why_tests_cant": "a test fixes where the objective is undefined; comparisons with NaN are false, so the result depends on the order of the points and on the length of the first step", "anchors": ["fdaPDE/optimization/grid.h:optimize", "fdaPDE/optimization/gradient_descent.h:optimize", "fdaPDE/optimization/callbacks/backtracking_line_search.h:pre_update_step"]}
{"id": "C150", "title": "Point location in floating point on planar triangles", "statement": "On a mesh of triangles in the plane, locating a point of a cell by the tree search never loses it to rounding: with the inverse of each cell computed in double precision and the tolerance of the code, the answer is a cell, and the exact barycentric coordinates of the point in that cell are not below zero by more than the tolerance and the error of the computed coordinates; all_locate returns every such cell; the first vertex of each cell is found whatever its shape.", "quantifier": "all meshes of triangles in the plane with any coordinates, all points of the domain, all orders of nodes that nth_element may leave", "why_tests_cant": "rounding of the inverse depends on every bit of the coordinates; a test mesh of well shaped triangles never shows the point of an ordinary thin triangle that all cells refuse", "anchors": ["fdaPDE/geometry/simplex.h:initialize", "fdaPDE/geometry/simplex.h:contains", "fdaPDE/geometry/simplex.h:barycentric_coords", "fdaPDE/geometry/tree_search.h:locate", "fdaPDE/utils/symbols.h:machine_epsilon"]}
{"id": "C151", "title": "Assembly and elliptic solve in floating point", "statement": "Initialising and solving an elliptic problem in double precision gives entries of the stiffness matrix, the mass matrix and the forcing vector that differ from those of exact arithmetic by a bounded number of roundings of the sum of the sizes of the local contributions, whatever the operator and whatever the order in which the sparse matrix adds the contributions to the same entry. If rounding is small with respect to the coercivity of the problem, the system that was assembled with rounding still has a solution, and the function that the rounding solver returns differs from the exact solution of the equation by the bound of exact arithmetic plus a term proportional to the rounding of the data, the assembly and the solver.", "quantifier": "all meshes, all operators and coefficients, all orders of summation, all linear solvers with bounded backward error, all unit roundoffs; on intervals, planar triangles and tetrahedra all coordinates", "why_tests_cant": "rounding errors depend on every bit of the coordinates, on the numbering of the mesh and on the order of the additions; a test compares one run with a tolerance", "anchors": ["fdaPDE/finite_elements/fem_assembler.h:discretize_operator", "fdaPDE/finite_elements/fem_assembler.h:discretize_forcing", "fdaPDE/finite_elements/solvers/fem_solver_base.h:init", "fdaPDE/finite_elements/solvers/fem_linear_elliptic_solver.h:solve", "fdaPDE/geometry/simplex.h:initialize", "fdaPDE/finite_elements/operators/laplacian.h:integrate"]}
{"id": "C152", "title": "Time stepping in floating point", "statement": "Solving a parabolic problem in double precision, with the assembly, the time step computed from the instants, the matrices and right hand sides of the steps and the linear systems all rounded, returns at every instant a function that differs from the solution of the equation by the bound of exact arithmetic, of the order of the cells and of the time step, plus a term proportional to the rounding errors of one step that does not grow with the number of steps taken over a given time beyond the growth of exact arithmetic; if rounding is small with respect to the ellipticity no step fails.", "quantifier": "all meshes, operators with a time derivative and coefficients, all numbers of steps, all orders of summation, all linear solvers with bounded backward error, all unit roundoffs; on intervals, planar triangles and tetrahedra all coordinates", "why_tests_cant": "the rounding errors of every step enter all later ones, and the number of steps has no bound; a test follows one run with one tolerance", "anchors": ["fdaPDE/finite_elements/solvers/fem_linear_parabolic_solver.h:solve", "fdaPDE/finite_elements/fem_assembler.h:discretize_operator", "fdaPDE/finite_elements/fem_assembler.h:discretize_forcing", "fdaPDE/finite_elements/solvers/fem_solver_base.h:init", "fdaPDE/pde/pde.h:solve"]}
{"id": "C153", "title": "Locations that are not points of the space", "statement": "Asked for a location with a coordinate that is infinite or not a number (a missing value), point location ends, reads nothing outside its tables and answers -1: Interval::locate, TreeSearch::locate and BarycentricWalk::locate. For such a location contains() is OUTSIDE for every cell, and the nearest neighbour search returns a node of the tree or its end. Whatever is asked for, a cell returned by locate is one that contains the location.", "quantifier": "all meshes with numbers for coordinates, all vectors of doubles including infinities and NaN, all orders of summation, all results of nth_element and orders of the hash set, all random starts", "why_tests_cant": "comparisons with NaN are all false, so that the code takes paths no test with points of the domain takes; that a loop never ends for such an input cannot be observed", "anchors": ["fdaPDE/geometry/interval.h:locate", "fdaPDE/geometry/tree_search.h:locate", "fdaPDE/geometry/walk_search.h:locate", "fdaPDE/geometry/simplex.h:contains", "fdaPDE/geometry/kd_tree.h:nn_search"]}
{"id": "C154", "title": "Accuracy of numerical derivatives", "statement": "The gradient of a field given by a callable differs from its derivatives by at most a constant times the square of the step, the mixed second derivatives likewise, and the diagonal of the Hessian by the fourth power of the step; in double precision the errors of the values of the field and of the points at which it is evaluated add at most their size divided by the step (its square for second derivatives), so that the computed derivatives are accurate for every smooth function at every point.", "quantifier": "all functions of any number of variables with three, four or six continuous derivatives, all points and steps; in floating point all roundings with a relative error and all errors of the evaluation of the field", "why_tests_cant": "a test compares the derivatives of a few functions at a few points with a tolerance; the cancellation depends on the size of the coordinates", "anchors": ["fdaPDE/fields/field_derivatives.h:FieldPartialDerivative", "fdaPDE/fields/field_derivatives.h:ScalarExprGradient", "fdaPDE/fields/field_derivatives.h:ScalarExprHessian"]}
{"id": "C155", "title": "Integrals of smooth functions converge", "statement": "On every mesh of intervals, triangles or tetrahedra the integral of a function computed by the integrator differs from its Lebesgue integral over the domain by at most the measure of the domain times a constant times the power degree + 1 of the mesh size, where degree is that of the quadrature rule, plus 1e-14 times the size of the function and its derivatives; so refining the mesh converges to the integral, up to that relative accuracy, for every rule. The entries of the right hand side of a finite element problem with a smooth forcing have the same kind of error.", "quantifier": "all quadrature tables, all meshes of cells that are not flat and have disjoint interiors, with any number of cells, all functions with as many continuous derivatives as the degree of the rule plus one, all mesh sizes", "why_tests_cant": "a test integrates a few functions on a few meshes; convergence is a statement on all meshes of a domain and all smooth functions", "anchors": ["fdaPDE/utils/integration/integrator.h:Integrator", "fdaPDE/utils/integration/integrator_tables.h:IntegratorTable", "fdaPDE/geometry/simplex.h:Simplex"]}
{"id": "C156", "title": "Any history of optimizer objects", "statement": "Optimizers are values: after any sequence of constructions, copies, assignments, wrappings in the type-erasing Optimizer, and calls of optimize, the result of optimize depends only on the parameters, the callbacks, the objective and the start; optimum(), value() and n_iter() of an object are those of its last call of optimize, and a copy, an assignment or a wrapper carries them along.", "quantifier": "all sequences of operations on any number of objects of type GradientDescent, Newton and BFGS and of wrappers, all objectives with or without a stopping criterion, all line searches and parameters, all starts, all contents of uninitialised memory", "why_tests_cant": "a test runs an optimizer once and reads its results; what a copy or a reused object returns depends on the history of the object and on what its memory held", "anchors": ["fdaPDE/optimization/gradient_descent.h:GradientDescent", "fdaPDE/optimization/newton.h:Newton", "fdaPDE/optimization/bfgs.h:BFGS", "fdaPDE/optimization/optimizer.h:Optimizer"]}
{"id": "C157", "title": "Numbers in text files", "statement": "CSVReader reads every text: the first line gives the number of columns and every other line a row, whatever the fields are. A double written with 17 significant digits, in scientific or plain notation, is read back as the same double, so that a matrix of doubles written to a file and parsed is unchanged, including not-a-number and infinite values; fields that are no numbers are missing values.", "quantifier": "all text files, all numbers of rows and columns, all doubles, all decimal notations", "why_tests_cant": "a test reads a few files; the round trip is a statement on all 2^64 doubles and on the nearest decimal numbers of 17 digits", "anchors": ["fdaPDE/utils/IO/csv_reader.h:CSVReader", "fdaPDE/utils/IO/csv_reader.h:parse_file", "fdaPDE/utils/IO/csv_reader.h:split_string"]}
{"id": "C158", "title": "Splines approximate functions to the order of the basis, and have the shape of their coefficients", "statement": "On all knots at distances not larger than h the basis of order R contains an expansion that differs from a function with R+1 continuous derivatives by at most M((R+2)h)^(R+1)/(R+1)!, at every point between the first and the last knot, and whose derivatives of order k, in a span of length d, differ by at most (2R/d)^k times that; with the values of the function at the averages of R consecutive knots as coefficients the error is at most M(Rh)^2/2; every continuous function is approximated as closely as wanted. A spline whose coefficients do not decrease does not decrease, and one whose control polygon is convex is convex.", "quantifier": "all orders, all knot vectors, uniform or not, all functions with the derivatives named, all points of the interval", "why_tests_cant": "a test compares one spline with one function at a few points; the order is a statement on all functions and on all refinements", "anchors": ["fdaPDE/splines/basis/spline.h:Spline", "fdaPDE/splines/basis/spline_basis.h:SplineBasis"]}
{"id": "C159", "title": "Tables of any cells count their facets and have closed boundaries", "statement": "For all triangles with distinct nodes, however many of them share an edge, the triangulation is built; an edge of m triangles is listed m/2 times (rounded down) as interior edge and, if m is odd, once as boundary edge; three times the number of triangles plus the number of boundary edges is twice the number of edges, and every node lies on an even number of boundary edges. The same holds for faces of tetrahedra with four in place of three and pairs of nodes in place of nodes, so that the number of boundary faces is even, and the surface mesh of a 3D triangulation has no boundary edge.", "quantifier": "all tables of cells with distinct nodes, of any size, also when a facet belongs to more than two cells", "why_tests_cant": "a test looks at a few meshes, all of them manifolds; these are statements on all tables, also those with mistakes that the library does not detect", "anchors": ["fdaPDE/geometry/triangulation.h:Triangulation", "fdaPDE/geometry/triangulation.h:surface", "fdaPDE/geometry/triangulation.h:boundary_edges_begin", "fdaPDE/geometry/triangulation.h:n_boundary_faces"]}
{"id": "C160", "title": "Values of diffusion problems in time stay within the data", "statement": "With first order elements and a diffusion, if the time step is not too small for the cells (squared length at most six times the step on intervals; squared double area at most twelve times the step times the scalar product of two edges on triangles), initial values, boundary data and forcing that are not negative give values that are not negative at all nodes and times, and without forcing the values stay between the bounds of initial and boundary values.", "quantifier": "all meshes, boundary markings, data, numbers of steps, diffusion tensors; all time steps from the bound on", "why_tests_cant": "a test runs a few problems with a step that is large enough; the property is about all of them, and fails when the step is small", "anchors": ["fdaPDE/finite_elements/solvers/fem_linear_parabolic_solver.h:solve", "fdaPDE/pde/pde.h:solve"]}
{"id": "C161", "title": "Penalized least squares with the matrices of the library", "statement": "A user who solves (Psi'Psi + lambda P) c = Psi'y, with Psi the evaluation matrix of a spline basis of order R >= 2 at locations of the knot interval, two of them different, and P the stiffness matrix of the negated bilaplacian after init(), obtains for every lambda > 0 the only spline that minimizes the squared differences from the data plus lambda times the penalty. Data on a line are fitted by that line; residuals have sum zero and are orthogonal to the locations; a larger lambda gives a spline that is not rougher and not closer to the data; fitted values do not change more than the data; for data of a smooth function the errors are bounded by the error of approximation of the basis and by lambda.", "quantifier": "all orders R >= 2 up to one more than the nodes of the quadrature rule per span (4 with the rule of the library), all knots, locations, data, lambda > 0 and exact factorizations", "why_tests_cant": "Tests fit a few data sets; that the factorization never fails and that the computed coefficients are the minimum is a statement on all knots, locations, data and smoothing parameters.", "anchors": ["fdaPDE/splines/basis/spline_basis.h:eval", "fdaPDE/splines/solvers/spline_solver_base.h:init", "fdaPDE/splines/spline_assembler.h:discretize_operator"]}
{"id": "C162", "title": "Spatial regression with a differential penalty computes the penalized least squares function", "statement": "A program that initialises a problem, evaluates its basis at locations, puts -Psi'Psi, lambda R1', lambda R1 and lambda R0 (R1 the stiffness matrix, R0 the mass matrix) into a 2 x 2 block matrix and solves the system with right-hand side -Psi'y and lambda u (u the discretized forcing) succeeds for every lambda > 0 as soon as one location lies in a cell of a connected mesh, whatever the boundary markers. The function it returns is continuous and linear on each cell, and it alone minimizes the sum of squared differences from the data plus lambda times the integral of the square of g, where (g, v) = (u, v) - a(f, v) for every v; the second half of the solution is that g. Data which are values of a solution of the problem are fitted by it; without reaction term and forcing constant data are fitted by the constant, and without reaction term the residuals have sum zero. A larger lambda gives no larger integral and no smaller residuals; the fitted values change no more than the data; when data are values of a function the squared errors are at most lambda times its integral.", "quantifier": "all connected conforming meshes of intervals, triangles, tetrahedra, surfaces or networks, all elliptic operators, forcings, locations (inside or outside the mesh), data and positive smoothing parameters", "why_tests_cant": "Optimality is over the infinitely many functions of the space, for every mesh, set of locations and parameter; a test compares one fit with stored numbers.", "anchors": ["fdaPDE/linear_algebra/sparse_block_matrix.h: SparseBlockMatrix", "fdaPDE/finite_elements/solvers/fem_solver_base.h: FEMSolverBase::init", "fdaPDE/finite_elements/basis/lagrangian_basis.h: LagrangianBasis::eval, pointwise_evaluation"]}
{"id": "C163", "title": "The kd-tree is balanced", "statement": "The tree built over a set of points has the smallest height possible for its number of points, so that insertions and walks from the root to a leaf take a logarithmic number of steps. This holds for points of the line with distinct coordinates whatever nth_element does within its contract. It is false with repeated points (the tree degenerates into a list, for any number of points) and in dimension two or more (the direction of the median differs from the direction used by the insertion).", "quantifier": "all sets of points of the line with distinct coordinates of any size, all behaviours of nth_element within its contract; all numbers of copies of one point in any dimension", "why_tests_cant": "The results of the searches are right whatever the shape of the tree, so that no test of results sees an unbalanced tree; the height must hold for every number and order of the points.", "anchors": ["fdaPDE/geometry/kd_tree.h: KDTree", "fdaPDE/utils/data_structures/binary_tree.h: push"]}
{"id": "C164", "title": "Spatial regression with covariates computes the best coefficients and function", "statement": "A program that puts the matrices of a problem and of its locations into a 2 x 2 block matrix, factorizes it, and solves with the Sherman-Morrison-Woodbury solver the system in which the covariates are projected out (U = [Psi'X; 0], V = U', C^-1 = X'X), and then regresses on the covariates what the fitted function leaves, succeeds for every positive smoothing parameter when the covariates and the constant are linearly independent at the locations; the coefficients and the function it returns, and no others, minimize the sum of squared residuals plus lambda times the integral of the square of the misfit of the problem. Residuals are orthogonal to the covariates, covariates added to the data move only the coefficients, and data made of covariates plus a solution are recovered. With an intercept among the covariates no minimum is unique. A larger smoothing parameter gives a smaller misfit of the problem and a larger sum of squared residuals, and the fitted values never change more than the data.", "quantifier": "all connected conforming meshes of intervals, triangles, tetrahedra, surfaces or networks, all elliptic operators, forcings, locations (inside or outside the mesh), numbers and values of the covariates, data and positive smoothing parameters", "why_tests_cant": "Optimality is over all coefficients and the infinitely many functions of the space, for every mesh, design and parameter; a test compares one fit with stored numbers.", "anchors": ["fdaPDE/linear_algebra/smw.h: SMW::solve", "fdaPDE/linear_algebra/sparse_block_matrix.h: SparseBlockMatrix", "fdaPDE/finite_elements/solvers/fem_solver_base.h: FEMSolverBase::init", "fdaPDE/finite_elements/basis/lagrangian_basis.h: LagrangianBasis::eval, pointwise_evaluation"]}
{"id": "C165", "title": "Regression in space and time computes the best function", "statement": "A program that takes Kronecker products of the matrices of a spline basis in time (values at the times, mass, penalty of second derivatives) with those of a finite element problem in space (values at the locations, mass, stiffness), puts them into a 2 x 2 block matrix and solves the system succeeds for all positive smoothing parameters; the function it returns, and no other, minimizes the sum of squared residuals over all times and locations, plus lambda_T times the integral of the squared second derivative in time, plus lambda_D times the integral over time of the squared misfit of the problem in space. Data that solve the problem and are affine in time are reproduced for all parameters; without reaction term the residuals have sum zero and are orthogonal to the times. Raising the parameter in time, or the one in space, reduces the penalty it multiplies, raising both by a factor gives a larger sum of squared residuals, and the fitted values never change more than the data.", "quantifier": "all connected conforming meshes of intervals, triangles, tetrahedra, surfaces or networks, all elliptic operators, locations (inside or outside the mesh), all increasing knots and orders for which the mass matrix in time is definite, all times between the first and the last knot with two different ones, all data and positive smoothing parameters", "why_tests_cant": "Optimality is over the infinitely many functions of the tensor product space, for every mesh, knots, times and parameters, and needs that the layouts of all five components agree (which Kronecker factor is the slow index); a test compares one fit with stored numbers.", "anchors": ["fdaPDE/linear_algebra/kronecker_product.h: KroneckerTensorProduct coeff", "fdaPDE/linear_algebra/sparse_block_matrix.h: SparseBlockMatrix", "fdaPDE/splines/solvers/spline_solver_base.h: SplineSolverBase::init", "fdaPDE/splines/basis/spline_basis.h: SplineBasis constructor, pointwise_evaluation", "fdaPDE/finite_elements/solvers/fem_solver_base.h: FEMSolverBase::init"]}
{"id": "C166", "title": "Assignments of binary matrices that read what they overwrite", "statement": "In a program on named binary matrices, an expression written with ~, &, |, ^ and reshaped may be assigned to one of the matrices it mentions: the assignment stores the value the expression had before it (a = ~a & b, a = (a ^ b).reshaped(r, c)), the shape included, and a program of such assignments, of assignments of any other expressions to matrices they do not mention, and of writes of coefficients computes what the same program says about Boolean tables, and throws exactly where shapes do not fit or a coefficient is out of range. An expression stored in a variable shows the present coefficients of its matrices.", "quantifier": "all programs: any number of matrices of any sizes, any sequence of statements, any nesting of expressions", "why_tests_cant": "Operands are held by reference and the destination is written pack by pack while the expression is read, so correctness is an invariant of the loop over every size, and over every history of earlier statements; tests use distinct destinations.", "anchors": ["fdaPDE/linear_algebra/binary_matrix.h: BinaryMatrix::operator=, BinMtxUnaryOp, BinMtxBinaryOp, BinMtxReshapedOp, BinMtxBlock, BinMtxRepeatOp, NestAsRef", "fdaPDE/utils/symbols.h: internals::ref_select"]}
{"id": "C167", "title": "Linear algebra helpers in floating point", "statement": "In floating point, each coefficient of a Kronecker product has the relative error of one rounding and is zero exactly when the exact one is; lump(A) is diagonal and its diagonal differs from the row sums by at most as many roundings of the sum of the absolute values of the row as it has (stored) coefficients, and by as many relative roundings, so that it stays positive, if the row has no negative coefficient; SMW::solve returns x whose residual in (A + U C V) x = b is at most the relative backward error of the solvers and products times a number computed from the intermediate results, and whose error is at most that times the norm of the inverse.", "quantifier": "all sizes, all matrices, all orders and groupings in which sums are computed, all roundings of bounded relative error, all solvers of bounded backward error", "why_tests_cant": "Rounding depends on all the coefficients and on the order of summation, which changes with the compiler flags; a test compares a few results with a tolerance.", "anchors": ["fdaPDE/linear_algebra/lumping.h: lump", "fdaPDE/linear_algebra/kronecker_product.h: Kronecker", "fdaPDE/linear_algebra/smw.h: SMW::solve"]}
{"id": "C168", "title": "Regression with inexact linear solvers", "statement": "For every smoothing problem (splines, elliptic operators on meshes, with and without covariates, space and time), locations and positive parameters there is a number C such that, for all observations (and forcings), the coefficients obtained with a linear solver whose results leave a relative residual of at most ε in each equation, with C ε ≤ 1, differ from those of the minimizer of the penalized sum of squares by at most C ε times the largest of the latter (together with its misfit to the differential problem and, with covariates, with the observations; then the dense solver may have such errors too, and the bound holds for the coefficients of the covariates as well); the same bound holds for the values of the spline at every point of the interval, and for those of the piecewise affine function at every point of the domain.", "quantifier": "all meshes, knots, orders, elliptic operators, locations, parameters, observations, forcings, contents of unwritten memory, all ε ≥ 0 with C ε ≤ 1, all linear solvers with that residual", "why_tests_cant": "The factorizations are computed in floating point and never solve the systems exactly; a test compares one estimate with a stored one up to a tolerance and cannot say that the error is proportional to the precision for all data.", "anchors": ["fdaPDE/splines/solvers/spline_solver_base.h: SplineSolverBase::init", "fdaPDE/splines/basis/spline_basis.h: SplineBasis::eval", "fdaPDE/finite_elements/solvers/fem_solver_base.h: FEMSolverBase::init", "fdaPDE/finite_elements/basis/lagrangian_basis.h: LagrangianBasis::eval", "fdaPDE/linear_algebra/sparse_block_matrix.h: SparseBlockMatrix", "fdaPDE/linear_algebra/kronecker_product.h: Kronecker", "fdaPDE/linear_algebra/smw.h: SMW::solve"]}
{"id": "C169", "title": "Spatial regression in floating point", "statement": "For every mesh, elliptic operator, locations and positive parameter there is a number C such that, barring overflow and underflow, for all forcings and observations the following holds. If geometry, values of the basis, assembly, products of matrices and the linear solver all round, with C ε ≤ 1, ε being the larger of the relative residual of the solver and of the error of a number of successive roundings that depends only on the order of the rule, the operator, the number of cells around a node and the number of locations (with covariates, also on their number and that of the nodes), then the program returns an estimate, and it differs at no point of the domain from the function that minimizes the penalized sum of squares by more than C ε times the largest of the observations and of the values of the forcing. With covariates the same holds, C depending on them too and the dense solver having a relative residual of at most ε as well, for the function and for the coefficients of the covariates, whenever no combination of the covariates with coefficients not all zero is constant at the locations inside of the mesh and zero at the others.", "quantifier": "all meshes of intervals, planar triangles and tetrahedra with first order elements (other elements if the errors of their data are given), elliptic operators, locations, covariates, parameters, observations, forcings, contents of unwritten memory, orders of summation, unit roundoffs, linear solvers with bounded residual", "why_tests_cant": "rounding errors depend on every bit of the coordinates and observations, on the numbering of the mesh and on the order of the additions; a test compares one estimate with a stored one up to a tolerance", "anchors": ["fdaPDE/finite_elements/solvers/fem_solver_base.h: FEMSolverBase::init", "fdaPDE/finite_elements/fem_assembler.h: discretize_operator, discretize_forcing", "fdaPDE/finite_elements/basis/lagrangian_basis.h: LagrangianBasis::eval", "fdaPDE/finite_elements/basis/multivariate_polynomial.h: MultivariatePolynomial::operator()", "fdaPDE/geometry/simplex.h: initialize", "fdaPDE/linear_algebra/sparse_block_matrix.h: SparseBlockMatrix", "fdaPDE/linear_algebra/smw.h: SMW::solve"]}
{"id": "C170", "title": "Smoothing splines in floating point", "statement": "For every smoothing problem (order, knots, locations) and positive parameter there is a number C such that, barring overflow and underflow, for all observations the following holds. If the values and derivatives of the basis, the nodes of the quadrature rule, the penalty matrix, the evaluation matrix, the normal equations and the linear solver all round, and C ε ≤ 1, ε being the larger of the unit roundoff and of the relative residual of the solver, then the program returns coefficients, they differ from those of the spline that minimizes the penalized sum of squares by at most C ε times the largest observation, even if the observations passed to the program are themselves wrong by ε times the largest, and so does the value the library computes for the fitted spline, at every point between the first and the last knot, from the value of the minimizer. The penalized sum of squares of the computed spline exceeds the minimum by at most C times the square of ε times the largest observation. More generally, for every operator with Lipschitz coefficients, no entry of the matrices of the spline solver and no knot of its reference basis is wrong by more than C times the unit roundoff, if this product is at most one.", "quantifier": "all orders from 2, knots, locations (two of them distinct), parameters, observations, quadrature rules with enough nodes, orders of summation, unit roundoffs, linear solvers with bounded residual", "why_tests_cant": "rounding errors depend on every bit of knots, locations and observations, second derivatives of splines are computed with cancellations, and a rounded node could fall in another span; a test compares one spline with a stored one up to a tolerance", "anchors": ["fdaPDE/splines/spline_assembler.h: discretize_operator", "fdaPDE/splines/basis/spline.h: Spline::operator(), Spline::derive", "fdaPDE/splines/basis/spline_basis.h: SplineBasis::eval, operator()", "fdaPDE/splines/solvers/spline_solver_base.h: SplineSolverBase::init", "fdaPDE/utils/integration/integrator.h: Integrator"]}
