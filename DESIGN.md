# Formal model of fdaPDE-core in Lean 4 — design

Subject: `/repo/fdaPDE` (header-only C++ library) at the pinned commit.  The model lives in
`lean/Verif/<Component>/`.  Each component has

* `Model.lean`  – total, computable functions transcribing the C++ function by function, each
  with a comment citing file and lines;
* `Spec.lean`   – a small independent specification (plain functions on lists / matrices / sets);
* `Lemmas.lean` – helper facts;
* `Props.lean`  – the property theorems (named `Cnn_...`), with non-vacuity `example`s beside them.

## Conventions of the model

* `fdapde_assert` (utils/assert.h) throws `std::runtime_error`: modelled as an `error`/`none` outcome.
* Undefined behaviour (null dereference, out-of-range access, over-wide shift, use after free) is a
  **distinct outcome** of the model (`Outcome.ub`, `none`, or an explicit `ub` flag depending on the component), so
  "never UB" is a provable/refutable statement.
* 64-bit words are `BitVec 64`; signed/unsigned index arithmetic is `Nat`/`Int` (no overflow of
  `std::size_t`/`int` indices is modelled, sizes below 2^31 are assumed, as in the code; in C75, C118 and C137 the 32-bit
  arithmetic is modelled and an overflow is undefined behaviour).
* `double` is modelled by an exact field (`ℚ`, `ℝ`, or an arbitrary (linearly ordered) field);
  rounding is modelled only in C07, C134 to C136 and C148, tolerances are kept where they change the decision
  logic.  In C07 the row offset of a pack of a block (binary_matrix.h:331), an integer computed
  through a double, is modelled in binary64 arithmetic, because rounding makes it wrong.  In C134 to
  C136 the spline recursion, point location and the integrators are modelled with an operation
  for each one of the code, rounded by a `Rounding` (Float/Round.lean): monotone, odd, of bounded relative error.
  Rounding to nearest even with 53 bits and unbounded exponent is defined and proved to be one:
  overflow, underflow, infinities and NaN are not modelled, and no operation is fused or reordered.
  In C148 (line searches) underflow, overflow, infinities and NaN are modelled too (Float/Ieee.lean).
* Where the code violates the English property, the exact guard under which it holds is proved as
  a theorem suffixed `_partial` and the failure is proved as a `..._bug_...` theorem with a concrete
  witness of the model of the code as it is.

## Trusted base

Lean 4.33.0 kernel; axioms at most `propext`, `Classical.choice`, `Quot.sound` (the list for each theorem is in
`AXIOMS.txt`, generated with `#print axioms`); the faithfulness of the hand transcription; no `sorry`,
`native_decide`, `bv_decide`, no added axioms.  Not modelled: floating-point rounding (but for C07, C134 to C136, C148 to C154 and the linear solvers of C146 and C147), Eigen's
internals (dense/sparse storage and factorizations are specified by their contracts: a solver
returns a solution of the system it factorized), memory allocation failure, template
instantiation mechanics, C++ iterators of std containers.

## Plan per property

| id | what is modelled, how it is proved |
|----|------------------------------------|
| C01 | packed `BinaryMatrix` (list of `BitVec 64`), `set/clear/operator()`; refinement to a Boolean matrix by induction over operation histories |
| C02 | expression trees over packed matrices with both `coeff` and `bitpack` semantics; induction on the expression |
| C03–C05 | `linear_bitpack_visit`, `linear_bit_visit` and the three visitors; loop invariants; the wrong masks give refutations + partial theorems; `BinMtx/PropsExact.lean`: the answers of all and any for every size, and for which sizes they are right |
| C06 | packed comparison incl. over-wide shift as UB |
| C07, C08 | `BinMtxBlock` coefficient read, `bitpack` with its row offset in binary64 arithmetic, assignment loop; `BinMtx/PropsCopyExact.lean`: which blocks are copied correctly |
| C09, C10 | constructor loop (outcome for every range in `BinMtx/PropsExact.lean`), repeat/reshape index maps, `which` |
| C11–C15 | pointer trees as inductive trees; iterators as stack/queue machines; induction on trees/push histories. What `find` answers for every pushed key, and for every other one, is in BinTree/PropsFind.lean |
| C16, C17 | kd-tree build/range/nn search over `ℚ`-like ordered coordinates; tree invariant along depth mod K. What `nn_search` answers for every tree and query is in KDTree/PropsNN.lean: the unwinding walks again the side of the descent, so only points of the descent are compared |
| C18–C20 | constructor loop with the edge map; loop invariant relating map, lists and incidence count |
| C21, C22 | iterators as state machines over marker lists |
| C23 | the 3D constructor's face part, same invariant as C18–C20 with triples |
| C24, C25 | interval construction and binary search with explicit out-of-range reads |
| C26 | node-to-cell table and adjacency product |
| C27–C30 | vectors/frames as lists / association lists; histories by induction |
| C31–C34 | labelled transition system of queue operations and of workers/clients; invariants over all reachable states; sync race and dropped task as reachable counter-example executions |
| C35–C40 | matrices over commutative rings/fields; Eigen solvers by contract; iterators as list functions. The columns for which block matrices report the right rows are characterised in LinAlg/PropsBlockExact.lean and LinAlg/PropsKronExact.lean |
| C41 | the in-place successor loop of `combinations`; induction |
| C42–C46 | simplices over a linearly ordered field; linear algebra |
| C47 | midpoints construction over an ordered field |
| C48 | tree search = filter of kd-tree range query by containment, using C16; on meshes flat in a direction the normalisation is `1.0 / 0.0` and the coordinates NaN: repeated with scalars that have infinities and NaN (Geometry/Flat.lean), equal to the real model otherwise, and shown to lose cells there |
| C49–C51 | Cox–de Boor recursion over an ordered field with zero-denominator conventions of the code; induction on order. The recursion is linear in the order 0 values, and those of one span sum to one at any point, which gives the sum of the basis for every knot vector (Splines/PropsWhen.lean) |
| C52 | assembler index loops |
| C53, C54 | exponent enumeration loop; polynomial evaluation; formal derivative |
| C55 | Vandermonde solve by contract; uniqueness of interpolation |
| C56, C57 | reference tables; dof numbering loop |
| C58 | evaluation loops over dof tables |
| C59 | tables as rationals, monomial moments checked in the kernel, extended to all polynomials by linearity |
| C60, C61 | triplet accumulation; `selfadjointView<Lower>` |
| C62, C63 | boundary iterator machine; row replacement; time loop |
| C64–C69 | optimisation loops with fuel-free invariants over an ordered field / inner-product algebra |
| C70 | difference quotients as exact field expressions |
| C71–C73 | strings as `List Char`; loops |
| C74–C77 | byte decoding; record decoder/encoder round trips |
| C78–C80 | heap with live/deleted objects; histories |
| C81–C84 | type lists as lists; expression trees; `almost_equal` over ordered fields |
| C85–C87 | spline evaluation matrix; exactness of the selected rule for products; quadrature sums over meshes |
| C88 | `log1pexp` over the reals; bounds of `log(1 + y)` in each branch |
| C89 | `std::lexicographical_compare` as a recursion on lists |
| C90 | variables holding shared pointers into a heap of factorizations; histories by induction |
| C91 | finite sums: the assembled matrix against the quadrature of the weak form of the finite element functions, by linearity of the form |
| C92 | C91 for the reaction operator; positivity of the weights of each rule by kernel computation; negative vector for the one rule with a negative weight |
| C93 | the walk as a loop with fuel over any mesh; termination on Delaunay meshes because the power of the point with respect to the circumsphere of the current cell decreases at every step |
| C94 | comparison of points in polar coordinates by cases on the half planes; strict total order by an injective key |
| C95 | invariant of the constructor relating rows and points; nearest site by a scalar product inequality; counterexample with an obtuse triangle |
| C96 | cyclic sums telescope |
| C97 | the invariant of C23 with one on the edge tables, indexed by the pairs (cell, edge) recorded; six edges by a permutation argument |
| C98 | counting the nodes that are not marked |
| C99 | invariant of the renumbering; the traversal of C22 decides when rows stay unwritten |
| C100 | loops over cells and points commute; fold computing a minimum; on top of C45 and C48 |
| C101 | invariant of the column loop: the column is the closed form for some pattern; Cauchy-Schwarz in the energy inner product; the average of the candidates bounds the worst one |
| C102 | invariant of the loop over the forcing columns (blocks are disjoint); exchange of the sums over dofs and cells; on top of C61, C62, C63 and C91 |
| C103 | a(v, v) = 0 makes v constant on cells (left inverses of the matrices of the gradients of the basis functions at the quadrature nodes, checked by the kernel; Jensen for the rule with a negative weight), hence on the connected mesh; trivial kernel, so non-zero determinant; completion of the square for the energy |
| C104 | test the step with the new solution, expand the square of the difference; definiteness of the matrix of the steps |
| C106 | reference semantics as specification; invariant: every cell counts its owners; induction over histories |
| C107 | descent lemma for functions with bounded curvature; telescoping sum over the trace of the run (C65, C68); Lipschitz gradients over the reals |
| C108 | Fubini's theorem on the reference simplex by induction on the dimension; change of variables to the cell; convex sets have null boundary, so cells with disjoint interiors are disjoint almost everywhere |
| C109 | error equation tested with the error, Cauchy-Schwarz for the L2 product, Taylor bound for the truncation error of a step; induction on the steps |
| C110 | barycentric coordinates of two cells sharing a facet: gradients times volumes cancel (determinants of bordered matrices); summing over the facets at an interior node, the gradient of a test function has zero integral; uniqueness from C103 |
| C111 | test with the negative part of the solution; off-diagonal products of gradients not positive; algebra of the gradients on triangles without obtuse angles |
| C112 | orthogonality of the error to the test functions, with the integrals over the convex hulls of the cells (C108); the gradient of the interpolant minus the gradient of the function is a sum of Taylor remainders times gradients of the local functions, whose lengths are the inverses of the heights; quadrature nodes are in their cell, so that the quadrature of a Lipschitz forcing has an error of order h |
| C113 | compile-time shapes (`Dynamic` or a number) as pairs of options; the view constructors, the write through a block, the copy loops on storage that is renewed only for dynamic sizes; refutations for vectors and static sizes |
| C114 | the mixing step on 64-bit words, folds over lists; the step is injective in its second argument |
| C115 | iterators as pairs (index, value) with the filter a binary vector read as stored; induction on the number of steps; refutations for `--` and for the filter of the faces |
| C116 | `LinSpaced` over an ordered field, markers as a binary vector; `locate` through C24; the row assignment of a network as an operation with sizes |
| C117 | State machine of a PDE object (problem data, matrices of the solver, flag, solution) with one transition per call; induction over the list of calls with the invariant "fields are those set last, system is the one of the last init up to imposed rows"; imposing conditions twice = imposing the last ones |
| C118 | Folder path, file system as a partial function from paths to contents, `find`/`substr` with wrapping 64-bit positions; readers of C75 and C77 |
| C119 | Nodes with run-time sizes as records of sizes, subscript and call; expressions as syntax trees, by induction on them |
| C120 | Weak forms as field expressions over the buffers of the assembler; the loop with the mutable tree is a refinement of the loop with fresh coefficients, by an invariant of the tree through all loops |
| C121 | Infinite runs of the transition system of C32–C34 with a fair scheduler (strong fairness for workers and for the steps of clients inside a call; new calls are never forced); by contradiction and descent on the position of a worker or client, using the invariants of C32–C34 (no lost wake-up, single client not forgotten). Counterexample runs for two clients. |
| C122 | Over the reals: between two knots the model's basis functions are polynomials (induction on the recursion of C85), so that the composite rule of C105 equals Mathlib's interval integral when the rule is exact for the degree of the integrand. Separately: no rule with n nodes is exact for degree 2n, and the value of the mass matrix of cubic splines with the table of the library. |
| C123 | Space: the cells as simplices with the nodes of the mesh as vertices (model of C42), the basis functions of C55 pulled back by the code's inverse Jacobian, the numbering of C57, the evaluation matrix of C58 and the loop of `dofs_coords`. Weights of the nodes in a point do not depend on the cell on a conforming mesh (uniqueness of barycentric coordinates); the value in a cell is a formula in these weights in which the cell does not appear; closed cells glue to a continuous function. Regions, conformity and properness are stated with Mathlib's convex hulls and affine independence. |
| C124 | Mesh objects by address with their members and the lazily built `location_policy_`, a tree and the address of the mesh it was built for; implicit copy and move operations; freed and moved-from objects read as undefined. Simulation: in careful programs every policy refers to a live object with the value it was built from. The search itself is C48 with the tree of one mesh and the cells of another. |
| C125 | Boundary cells of a simplex by iterated `prev_permutation` of the vertex mask, `Unit()`, the edge and face handles of triangles and tetrahedra over the tables of C18-C20 and C97. The i-th permutation drops vertex d - i; the points of a face are those with zero weight there, and the interior of a simplex are the points with positive weights. |
| C126 | The table of member functions of `PDE__`, the positions and types each call of the wrapper casts to, the signatures of `PDE<D,E,F,S>` with the types of forcing and operator as parameters, wrappers as in C79 and C80. A cast to other types is undefined behaviour. Simulation by variables owning their problem, for any behaviour of the member functions; instantiated with the object of C117. |
| C127 | The basis and its expansion as in C49-C50. Marsden's identity for the recursion, as an identity of polynomials in a second variable, by induction on the order; its coefficients give the expansion of each monomial. Uniqueness on a span: the matrix that expresses monomials in the active functions has a left inverse, hence a right inverse. End values from the averages of knots. |
| C128 | The derivative objects as in C51. At a simple knot the recursions started from the left and from the right span agree for orders above the number of derivatives taken; each derivative is therefore a polynomial on every closed span, and derivatives within the spans glue to derivatives within the interval. |
| C129 | The matrices of C105, written as sums over the nodes of the spans. A spline whose square has no quadrature is zero at all nodes, hence a zero polynomial on each span, hence zero by C127; for cubics with three nodes two neighbouring spans are needed, by C128. The singular case by counting dimensions. |
| C130 | `operator<<` as a function on the characters written so far, after evaluation of the expression into a temporary; sparse storage as the list of stored entries in storage order. Loop invariants; injectivity by splitting the text at the line feeds. |
| C131 | `problem1`/`problem2` (PDE/MeshProb.lean) compose measures and inverse Jacobians of the cells, reference basis, quadrature rule and numbering of dofs into the input of `init`; `GoodMesh` (PDE/MeshProbSpec.lean) states the geometry. Two cells at a facet lie on opposite sides (otherwise points near the facet are in both), so at most two share it; connectedness of the domain gives links of the cells through nodes; then C103, C110, C111. |
| C132 | Divergence theorem on a simplex (Geometry/LemmasDivergence.lean): Fubini on the reference simplex, the fundamental theorem of calculus along one coordinate and a change of the order of the vertices. Summed over a mesh the integrals over common facets cancel (PDE/LemmasWeak.lean), which gives the weak form of -Δu = f and, with (x_z - a) v², the inequality of Friedrichs. Then C112 with measures, gradients and numbering of C131; `ConvergenceSpec.lean` states smoothness of u, shape of the cells and the errors. |
| C133 | The inverse of the approximation kept by BFGS satisfies the direct update (Sherman-Morrison); its trace and determinant give the potential tr B - log det B, bounded below by the dimension through the eigenvalues, hence the cosines between gradients and directions are bounded below on average (Optim/LemmasBfgs.lean). With the two conditions of the Wolfe search this gives a geometric decrease. Termination of the run: the searches end (C69), more fuel does not change a result, induction on the iterations. |
| C134 | Splines/FloatModel.lean has the recursion with each operation rounded (equal to the model of C49 for exact operations). All terms of the recursion are products, quotients and sums of nonnegative numbers, so that relative errors multiply: induction on the order gives (1-u)^-6R. Subtractions are of data only. |
| C135 | The scaling to the unit cube is monotone after rounding and the query is scaled in the same way, so that every bound is kept; the upper clamp needs rnd(1+u) = 1, proved for binary64. The coordinates: each is a sum of products, error analysis with Float/Error.lean. |
| C136 | Quadrature/FloatModel.lean; induction over the loops with the error calculus of Float/Error.lean, then C87 for polynomials. |
| C137 | BinMtx/IntModel.lean repeats the model with a check of every `int` the code computes. Equality with the unbounded model by bounding each index by the number of coefficients plus one word; the visitors which stop at the first index not less than the size compute it, so that the last word of a large matrix overflows. |
| C138 | Energy method: the distance between the computed values and those of u at the nodes satisfies the scheme with a residual made of the difference quotient in time, the quadrature and the interpolation (divergence theorem of C132); testing with the distance itself and a quadratic recursion bound its norm given by the quadrature, and the nodes of the tables determine affine functions, so that this norm bounds the integral. |
| C139 | Coefficients as functions of the point, given to the operator as rows of values at the quadrature nodes (`EllipticSpec.lean`: flux A∇u, bounds of the coefficients, smoothness, sampling). The values of a test function at the quadrature nodes are bounded by its norm plus the size of the cell times the norm of its gradient, so the discrete form is coercive on test functions by the Friedrichs inequality with the constant of the mesh, hence the matrix is non-singular (C103 extended to definite forms). The residual of the interpolant is split into the quadrature of div(A∇u) (C112), the variation of A∇u on a cell and the interpolation errors of value and gradient (`LemmasElliptic.lean`). |
| C140 | The loop over the boundary dofs never reads the marker of dof 0 (`boundaryLoop` of Solver.lean is the same list with dof 0 marked), so every function of the solver commutes with marking it (`Prob.pin`); the theorems that need dof 0 on the boundary, those in floating point included (PropsZeroMore.lean), are applied to the pinned problem. Existence of the discrete solution (`C103_exists`, from the non-zero determinant) and uniqueness give the error exactly (`C140_error`, PropsZeroExact.lean); patch test and maximum principles in PropsZeroMesh.lean. |
| C141 | Histories of writes are lists of operations on the object (`SB.run` of LinAlg/BlockModel.lean); the object represents a dense matrix (`SB.Rep`), every operation preserves the representation, induction over the history. |
| C142 | The discrete form is bounded below by half the diffusion minus the rate of growth times the norm (Gårding inequality at each quadrature node, no relation between coefficients), so for a time step at most half the inverse of that rate the matrix of each step is non-singular (C104 extended to definite forms), and the energy method of C138 with the residual of C139 gives a recursion with growth, summed with the discrete Gronwall lemma; the energies of the steps are summed too, which bounds the gradients. |
| C143 | The problem of second order is built by the modelled numbering of the dofs, reference basis and 6 point rule. On a cell the discrete functions are quadratics in the barycentric coordinates; the stored rule integrates products of two affine functions up to 25·10⁻¹⁴, which gives coercivity of the discrete form and a bound on the defect of form and load. Divergence theorem on the mesh (as C132) for piecewise quadratic functions: weak form and Friedrichs inequality; Taylor expansion with third order remainder for the interpolation at the six nodes; Cauchy–Schwarz over the cells. |
| C144 | `BinTree/Heap.lean`: nodes in a heap whose cells can be deleted, variables holding root pointer and counter, one model function per member function with the loops of the code; reading a null or deleted node is undefined behaviour. Invariant: each variable represents a tree with addresses, all addresses are distinct, the trees are disjoint and cover the live cells. Simulation of each operation against trees as values, induction over the program. |
| C145 | `Threads/Events.lean`: the pool, the queue and its clients, one access to shared memory or synchronisation per step, with a record of all of them. `Threads/RaceSpec.lean`: happens-before, data races and the rules for clients. Proof: for each variable an invariant that says where earlier accesses are known (to the holder of a mutex, to whoever has the task in hand, with a fulfilled future), by induction over the executions. |
| C146 | `InexactSpec.lean`: a solver with backward error ε row by row in place of the exact factorization. The computed values solve the discrete problem up to a residual; the difference from the exact discrete solution is split into a part on the boundary nodes (bounded by the rounding of the identity rows) and a test function, whose energy is bounded by the residual with the coercivity of C139. The bound of the residual sums the absolute values of the entries of the rows, cell by cell, which costs two powers of the size of the cells. |
| C147 | The solver of C146 in every step of the recursion of C142. The boundary parts of the differences from the exact discrete solution are bounded by ε at every instant; the interior parts satisfy the recursion of the error of C142 with the residual of the step, the boundary part and its time increment as the right hand side, so the discrete Gronwall argument of C142 (`flowBound`) bounds them with the same growth factor; the increment of the boundary part costs the inverse of the time step. |
| C148 | `Float/Ieee.lean`: doubles as reals rounded to nearest even on the format with 53 bits and multiples of 2^-1074, infinities and NaN; `Optim/FloatModel.lean`: the line searches and gradient descent with every operation rounded, objective and gradient arbitrary functions on doubles, the order of summation of a scalar product any binary tree. Termination: the step is below 2^(1024-k) after k reductions and a product with at most one half of the smallest number is zero, where the test is false. Decrease: sums of doubles are multiples of the smallest number, so rounding does not change their sign. The hangs are invariants of the loops. |
| C149 | `Optim/FloatGrid.lean` and the gradient descent of C148 on doubles. Invariant of the loop over the grid (the value kept is a number, not greater than those seen that are numbers); the decrease of C148 composed along the iterations. |
| C150 | `Geometry/FloatInverse.lean`: the matrix of a triangle in the plane and its inverse by Eigen's closed formula, all operations rounded; search and `contains` as in C135. The computed coordinates are the exact ones of a triangle with rounded sides, times the rounded reciprocal of the determinant, up to six roundings; the common factor of the reciprocal cancels in the test of the sign and is bounded in the test of the sum. The two points that are lost are computed bit by bit from the definition of the rounding. |
| C151 | `PDE/FloatAssembly.lean`: weak forms, quadrature, assembly of operator and forcing with every operation rounded; sums are any result of rounded additions in some order and grouping (`Float/Sum.lean`). `PDE/FloatCells.lean` and `PDE/FloatCells3.lean`: measure, inverse and gradients of planar triangles, intervals and tetrahedra from the coordinates. An error calculus counts roundings and sums sizes, giving the entrywise error of the system. The rows of the error sum to a small multiple of the measures of the cells around a node, so the computed matrix is a small perturbation of a coercive one: it has no kernel, and the residual of the computed solution in the exact equations feeds the argument of C146. |
| C152 | `PDE/FloatStep.lean`: the parabolic solver with every operation rounded, including the difference of the instants, the quotients of the mass by the step and the right hand sides. The computed entries of a step are within `stepDepth` roundings of the exact ones, so the computed matrix is a small perturbation of a coercive one and no step fails; the residual of every computed step in the exact equations of C142 is bounded by `stepError`, which enters the discrete Gronwall argument of C147 in place of the residual of the linear solver. On intervals, planar triangles and tetrahedra the data comes from the coordinates as in C151. |
| C153 | `Geometry/NanModel.lean`: point location on IEEE doubles with infinities and NaN (`Float/Ieee.lean`), comparisons in the order of the code. The facts on building and searching the KD-tree that hold for any two comparisons, ordered or not (`KDTree/LemmasAny.lean`), give termination and the absence of undefined behaviour for every input, and that the root of the tree is always examined; with NaN the root passes every test. The scaled boxes are in [0, 1] because rounding w * (1 / w) never exceeds 1. |
| C154 | `Fields/Derivatives.lean` (difference quotients of `field_derivatives.h`) and `Fields/FloatDerivatives.lean`: the same quotients with each operation rounded and a callable whose values are wrong by a bounded amount. Specification `Fields/AccuracySpec.lean`: partial derivatives (`pd`) and `Near`. Taylor bounds by repeated integration of bounds on derivatives (`Fields/LemmasAccuracy.lean`); in floating point the error of the values and of the rounded points is divided by the step. The claim that the computed derivatives are always accurate is false: `C154_bug_large` shows that at a coordinate so large that the step is absorbed the computed derivative of the identity is 0, so the rounded theorems carry the bound as it is. |
| C155 | The integrator (`Quadrature/Model.lean`) on the tables (`Quadrature/Tables.lean`) and the simplices (`Geometry/Model.lean`). Taylor polynomials of any order of functions of several variables, written as polynomials in the coordinates of the reference simplex with a bound on their coefficients (`Quadrature/LemmasTaylor.lean`), the exactness of the tables (C59) and the change of variables of C108 give the error on a cell (`Geometry/LemmasConverge.lean`); sums over cells give meshes, and the limit of fine meshes. |
| C156 | Programs over variables that hold optimizers and wrappers (`Optim/Objects.lean`, on `Optim/Model.lean`), interpreted with the operations of the library, where memory that is not initialised is `none` or arbitrary, and with those of values (`Optim/ObjectsSpec.lean`). A simulation between the two interpretations (`Optim/LemmasObjects.lean`): the members left by a call never reach the next one, because every loop writes them before reading them. |
| C157 | The conversion of fields by `operator>>`, a parameter of `IO/Csv.lean`, is modelled from the specification of the standard library (`IO/Number.lean`), with rounding to nearest even of `Float/Ieee.lean`. Different doubles are at least 2^-53 apart, relatively, and a decimal number of 17 digits is nearer than half of that; the parser of C72 is followed on lines of any length (`IO/PropsNumber.lean`). |
| C158 | On the model of the basis and of expansions of C50, C127 and C128. The coefficients are those of the functionals of de Boor and Fix, an alternating sum of products of derivatives that Marsden's identity shows to be dual to the basis, on Taylor polynomials at a middle knot of each support (`Splines/LemmasApprox.lean`); their size is bounded by the distances of the knots. Shape: summation by parts in the derivative, and the sign of derivatives from the right (`Splines/PropsApprox.lean`). |
| C159 | On the model of the constructors of C18 and C23. The loop over facets has an invariant that does not assume a manifold: after any number of occurrences of a facet the list contains it half as many times as interior and once as boundary if the number is odd, and for every weight on facets the sum over the occurrences is the sum over the list with boundary entries counted once and the others twice. With weight one this is the count, with the weight that tests whether a facet contains given nodes it is the parity, since a cell has two facets or none through all but two of its nodes. The surface is closed because its edges are pairs of nodes of boundary faces. |
| C160 | On the model of init and of the parabolic solver of C102 and C104. The negative part of the new values is the test function: in the form of one time step, written by pairs of local functions, positive and negative parts contribute a term that is not negative when the products of distinct functions over the step do not exceed those of the gradients, so that the mass of the negative part vanishes. The condition is reduced to the coordinates with the stored quadrature rules, whose printed digits enter as a factor 1 + 10^-11. On meshes as in C131. A counterexample for small steps is computed on two intervals for every step up to 1/25. |
| C161 | The program of a user (create, init, evaluation matrix, normal equations) is composed from the models of C85, C105 and C129. The normal equations are the stationarity of a quadratic functional whose form is definite by C129; completing the square gives minimum and uniqueness; affine functions are in the kernel of the penalty, which gives lines and residuals; comparing the minima gives monotony in lambda; comparing with the spline of C158 gives the accuracy. |
| C162 | Program of a user written on top of the models (`spatialFit`, PDE/RegressionSpec.lean: init, pointEval, SB.make, a factorization); its matrix is read back with C141, its two block rows are tested with functions (C102), the system is shown non-singular from C103, C104 and C58, and the criterion is expanded around the solution; mesh versions use C131 and C123; `PDE/PropsRegression2.lean`: quadratic elements on triangles, where a quadratic function is determined by its values at the nodes and the middles of the edges (`p2_value`) |
| C163 | `KDTree/PropsHeight.lean`: the constructor's stack of segments is followed with a hole of the tree for each segment; by strong induction on the size of the segment, points of the line with distinct coordinates fill the hole with a tree of minimal height, for every `nth_element` within its contract (permutes, not greater before, not smaller after). Negations: `n` copies of a point give a list of height `n`; twelve points of the plane get height 5 although 4 is enough. |
| C164 | `PDE/SemiSpec.lean` (program of a user on `init`, `eval`, `SparseBlockMatrix` and `SMW::solve`), `PDE/PropsSemi.lean`: the q x q matrix of the Sherman-Morrison-Woodbury formula is shown non-singular, so that C39 applies and its result solves the system with the projection; the criterion is then expanded around the solution as in C162. Mesh versions on top of C131 and C123. `PDE/PropsFitMore.lean`: dependence on lambda and on the data. `PDE/PropsFit2.lean`: quadratic elements. |
| C165 | `PDE/SpaceTimeSpec.lean` (program of a user on the spline solver, the finite element solver, `Kronecker`, `eval` and `SparseBlockMatrix`), `PDE/PropsSpaceTime.lean`: forms of Kronecker products are sums over pairs of slices, positive definite if the factors are; a function that the stiffness, the penalty and the data do not see is constant in space (connected mesh), affine in time (C129) and so zero; the criterion is expanded around the solution, with the penalties rewritten as integrals over time. Mesh versions on top of C131 and C123. `PDE/PropsFitMore.lean`: dependence on both lambdas and on the data. `PDE/PropsFit2.lean`: quadratic elements. |
| C166 | `BinMtx/AliasModel.lean`: named matrices held by reference, sizes of nodes fixed when they are built, assignment writes pack by pack while it reads; `BinMtx/AliasSpec.lean`: right-hand side first, and Boolean tables; `BinMtx/PropsAlias.lean`: pack `k` of a plain expression reads pack `k` of its matrices only, which the loop has not written yet, and all its matrices have the same number of packs, so that resizing keeps them; loop invariant, then induction on the program. Bugs: blocks and repetitions of the destination, overlapping blocks, stored expressions whose matrix shrank. |
| C167 | `LinAlg/FpModel.lean`: the functions of `LinAlg/Model.lean` with rounded operations, sums by any summation (`Float/Sum.lean`); `LinAlg/PropsFp.lean`: error of sums of one sign by induction on the order of summation; the residual of SMW is an exact expression in the residuals of its steps (`smw_residual`), bounded with the norm `max` of row sums; a 1 x 1 system shows that the conditioning of `A` matters. |
| C168 | `PDE/PropsFitInexact.lean`: the programs of C161, C162 and C165 with any solver of relative residual ε (`BackwardLU`, `PDE/InexactSpec.lean`). The matrix of the system is non-singular because a solver that refuses singular matrices succeeds (C161, C162, C165), so a small residual is a small error (`inexact_bound`, with the sum of the coefficients of the inverse). Values between the nodes: spline bases are non-negative and sum to one, affine functions differ most at a vertex (`p1_gap`), quadratic ones by at most 7/3 of the difference at the nodes and middles of the edges (`p2_gap`, PropsFitInexact2.lean). With covariates (`PDE/LemmasNear.lean`, `PDE/PropsSemiInexact.lean`): each stage of the program (regression on the covariates, the three sparse solves and the dense one of the Sherman-Morrison-Woodbury formula, final regression) keeps the relation `Near` between exact and computed vectors; a system with perturbed matrix and right-hand side and a small residual is `solve_near`. |
| C169 | `PDE/FitRoundedSpec.lean`: the program of C162 with every operation rounded (`spatialFitR`) and the evaluation of first order basis functions at the locations (`refPointR`, `psiAtR`). `PDE/PropsFitRounded.lean`: the entries of the system and of the right-hand side differ from the exact ones by `fitDepth` roundings of a size that depends only on the problem (`assembly_err` of C151, `eval_err`), the perturbed system is solvable and its solution near (`solve_near`, C168). `PDE/LemmasPsiRounded.lean`: errors of the evaluation from the coordinates; `PDE/PropsFitRoundedMesh.lean`: meshes. With covariates: `PDE/SemiRoundedSpec.lean` (`semiFitR`, the program of C164 with every operation rounded, using `smwSolveFp` of C167), `PDE/LemmasNearRounded.lean` (each stage maps data and result that are near to near ones; `smw_nearR` for the formula of Sherman, Morrison and Woodbury), `PDE/PropsSemiRounded.lean` (`fit_system` for the matrices, then the stages in turn) and `PDE/PropsSemiRoundedMesh.lean`. |
| C170 | `Splines/FloatSolver.lean`: the spline solver and the evaluation matrix with the operations of the processor; `PDE/SmoothRoundedSpec.lean`: the program of C161 with every operation rounded (`smoothR`); `Splines/LemmasFloatSolver.lean`: with exact operations the solver is the one of C105. `PDE/LemmasTame.lean`: quantities whose error is at most a multiple of the unit roundoff when that is small (`Tame`), closed under rounded operations, sums and products of matrices. `PDE/LemmasSmoothRounded.lean`: values and derivatives of the basis at computed nodes are such, because a node lies strictly inside its span and, for small unit roundoffs, so does the computed one; hence the entries of the penalty and of the evaluation matrix. `PDE/PropsSmoothRounded.lean`: the normal equations are then those of C161 up to such errors, and are solved up to the residual of the solver (`solve_near`); the value of the spline by C134. `PDE/PropsSmoothOptimal.lean`: the criterion is a quadratic form around its minimizer. `PDE/PropsSplineRounded.lean`: the matrices of the solver for all operators, by induction on the operator. Partial: hypothesis on the last span as in C49; no overflow or underflow. |
| C105 | assembly theorem of C52 with bilinearity of the weak forms; affine invariance of the Cox-de Boor recursion by induction on the order |

Nothing in the list is considered inexpressible; what is only partially proved is said in
`MANIFEST.json` and in the findings section below (filled in as the proofs progress).

## Coverage of the code

Paths relative to `/repo/fdaPDE`.  "Modelled" means every function with run-time behaviour of the file has a definition, up to the
simplifications stated beside it; what is missing is named.

| files | model | not modelled |
|---|---|---|
| linear_algebra/binary_matrix.h | `BinMtx` | – |
| linear_algebra/{kronecker_product, sparse_block_matrix, smw, lumping}.h | `LinAlg` | Eigen storage; factorizations by contract |
| linear_algebra/fspai.h | `LinAlg/Fspai` | Cholesky factorization by contract |
| utils/data_structures/binary_tree.h | `BinTree` | – |
| utils/data_structures/{block_vector, block_frame}.h | `Blocks` | – |
| utils/{combinatorics, compile_time}.h | `Combinatorics` | – |
| utils/{traits, type_erasure}.h | `Utils` (`TypeLists`, `Erasure`, `Storage`) | detection idioms, function pointer traits |
| utils/symbols.h | `Utils` (`Symbols`, `SparseLU`, `Hash`) | type aliases |
| utils/IO/{csv_reader, shp_reader}.h | `IO` | file streams (the bytes are the input) |
| utils/integration/{integrator, integrator_tables}.h | `Quadrature` | – |
| geometry/kd_tree.h | `KDTree` | – |
| geometry/triangulation.h | `Triang`, `Geometry/Search` | – |
| geometry/{interval, linear_network}.h | `Mesh1D` | – |
| geometry/{simplex, hyperplane, segment, tree_search}.h | `Geometry` | – |
| geometry/voronoi.h | `Geometry/Voronoi`, `Geometry/Voronoi2` | – |
| geometry/walk_search.h, geometry/utils.h | `Geometry/Walk`, `Geometry/Clockwise` | – |
| geometry/{triangle, tetrahedron}.h | `Triang/Edges3`, `Triang/Handles` | – |
| geometry/project.h | `Geometry/Project` | – |
| multithreading/*.h | `Threads` | weak memory (executions are interleavings; C145 proves that programs that keep to its rules have no data race, and for these C++ guarantees that every execution is an interleaving); when the worker destroys its copies of a task's arguments |
| fields/*.h | `Fields` | – |
| finite_elements/basis/*.h | `FEM` | – |
| finite_elements/{fem_assembler, operators/*}.h, pde/*.h | `PDE` | - |
| finite_elements/solvers/*.h | `PDE/Solver` | selectors (types only) |
| splines/basis/*.h, splines/spline_assembler.h, splines/operators/*.h, splines/solvers/*.h | `Splines` | - |
| optimization/*.h | `Optim` | – |

## Findings

Behaviours of the code that contradict the property, each with a kernel-checked refutation
(theorems named `Cnn_bug_*`; the text is the theorem's own comment).

- `C01_bug_negative_index` (Verif/BinMtx/Props.lean): The assertion in `set` only checks upper bounds (line 169): a negative column index passes and silently writes a *different* coefficient.
- `C03_bug_false_negative` (Verif/BinMtx/Props.lean): An all-true 1 × 65 matrix (built with the public constructor from a dense matrix) is reported as *not* all true.
- `C03_bug_false_positive` (Verif/BinMtx/Props.lean): A 1 × 127 matrix whose last coefficient is false is reported as all true.
- `C04_bug_false_negative` (Verif/BinMtx/Props.lean): A 1 × 40 matrix with its last coefficient set: `any()` answers false.
- `C04_bug_false_positive` (Verif/BinMtx/Props.lean): The negation of an all-true 1 × 1 matrix: `any()` answers true.
- `C06_bug_multiple_of_64` (Verif/BinMtx/Props.lean): For *every* pair of well-formed matrices of equal shape with a multiple of 64 coefficients the comparison has undefined behaviour.
- `C07_bug_copy` (Verif/BinMtx/Props.lean): Copying the 30 × 3 block at (0,0) of a 30 × 4 matrix gives a wrong coefficient.
- `C07_bug_rounding` (Verif/BinMtx/Props.lean): The row where a pack of a block starts is computed in floating point (binary_matrix.h:331): `49 * (64 / 3136.0)` is rounded to a number below one, so that copying the block of all coefficients of a 2 × 3136 matrix, whose packs all lie inside a row, duplicates the coefficient (0,0) at (1,0).
- `C08_bug_no_clear` (Verif/BinMtx/Props.lean): Assigning a zero block to a block of ones does nothing.
- `C09_bug_wide` (Verif/BinMtx/Props.lean): A 2 × 3 matrix cannot be constructed from six `true`s: the constructor throws.
- `C09_bug_tall` (Verif/BinMtx/Props.lean): A 3 × 2 matrix is filled wrongly: element 2 belongs to (1,0) but lands at (0,0).
- `C09_bug_short_range` (Verif/BinMtx/Props.lean): A range shorter than the matrix is dereferenced past its end (loop condition uses `||`).
- `C12_bug_single` (Verif/BinTree/Props.lean): A tree with a single node has one leaf, its root, and the leaf iteration does not yield it: `leaf_begin()` is already the end.
- `C13_bug_leaf` (Verif/BinTree/Props.lean): A tree holding a single key does not find it.
- `C13_bug_leaf_general` (Verif/BinTree/Props.lean): More generally: a key that occurs only at leaves is never found.
- `C13_bug_empty` (Verif/BinTree/Props.lean): Searching an empty tree dereferences a null pointer.
- `C13_bug_null` (Verif/BinTree/Props.lean): Searching for a key smaller than a root without left child dereferences a null pointer.
- `C13_bug_some_key_missed` (Verif/BinTree/PropsFind.lean): **C13**: whatever distinct keys are pushed, at least one of them is not found.
- `C13_bug_smaller_key` (Verif/BinTree/PropsFind.lean): **C13**: if the first key pushed is the smallest and another one follows, searching any smaller key dereferences a null pointer.
- `C14_bug_erase_always_empties` (Verif/BinTree/Props.lean): `erase(pos)` frees exactly the nodes below `pos` whatever the position, but the tree is empty afterwards.
- `C14_bug_erase` (Verif/BinTree/Props.lean): The claim fails at every existing position other than the root: the nodes outside of it (at least one) are neither freed nor reachable.
- `C15_bug_empty` (Verif/BinTree/Props.lean): Copying an empty tree fails: the constructor throws.
- `C15_bug_assign_empty` (Verif/BinTree/Props.lean): C15 (finding): assigning an empty tree, to another tree or to itself, throws.
- `C15_bug_self_assign` (Verif/BinTree/Props.lean): Self copy-assignment of a non-empty tree dereferences a null pointer after deleting all nodes.
- `C16_bug_empty_build` (Verif/KDTree/Props.lean): An empty set of points: the constructor reads past the end of the index vector.
- `C16_bug_empty_search` (Verif/KDTree/Props.lean): A default-constructed tree: range search dereferences a null iterator.
- `C17_bug_null` (Verif/KDTree/Props.lean): Two points on a line, query on the far right: the descent steps to a missing child and asks for its children.
- `C17_bug_wrong` (Verif/KDTree/Props.lean): The unwinding looks again on the side already visited: for the query (101, 0) the point (100, 100) at squared distance 10001 is returned although (80, 0) is at squared distance 441.
- `C17_bug_even` (Verif/KDTree/PropsNN.lean): **C17**: for every even number of points with distinct coordinates, in any dimension, and every `nth_element`, there is a query for which `nn_search` on the tree of these points dereferences a null pointer.
- `C18_bug_three_triangles` (Verif/Triang/Props.lean): C18 (finding): if three triangles share an edge the edge is listed twice: the constructor forgets the edge once it has seen it twice.
- `C21_bug_interior` (Verif/Triang/Props.lean): C21 (finding): the traversal of the boundary nodes yields exactly the nodes that are NOT marked as boundary: the test in the iterator is inverted.
- `C21_bug_never_right` (Verif/Triang/Props.lean): C21 (finding): on a mesh with at least one node the traversal never yields the boundary nodes.
- `C22_bug_last_missing` (Verif/Triang/Props.lean): C22 (finding): the traversal of the edges, faces or boundary faces of a 3D triangulation yields every index passing the filter except the last one, so it is incomplete whenever the last entity passes the filter (always for the unfiltered traversal).
- `C24_bug_last` (Verif/Mesh1D/Props.lean): C24 (finding): locating the right end of an interval reads past the last node, on every interval mesh with at least two nodes.
- `C25_bug_one_cell` (Verif/Mesh1D/Props.lean): C25 (finding): in an interval with one cell the only cell is given the non existing cell 1 as right neighbour.
- `C26_bug_neighbors` (Verif/Mesh1D/Props.lean): C26 (finding): `neighbors()` of every cell of every linear network reads past the end of the list of cells of its second node: the index of the second loop starts at the size of the first list.
- `C28_bug_remove_other_type` (Verif/Blocks/PropsFrame.lean): C28 (finding): a key inserted as one type and removed as another disappears from the column list while its data stays stored: column list and storage disagree.
- `C28_bug_zero_rows` (Verif/Blocks/PropsFrame.lean): C28 (finding): after inserting a block without rows, blocks with different numbers of rows are accepted.
- `C28_bug_remove_absent` (Verif/Blocks/PropsFrame.lean): C28 (finding): removing an absent key is undefined (it erases the end iterator).
- `C28_bug_col` (Verif/Blocks/PropsFrame.lean): C28 (finding): `col(key, idx)` fails for every index: it throws for every existing column (the assertion is reversed) and is undefined beyond.
- `C31_bug_unlocked_empty` (Verif/Threads/PropsQueue.lean): C31 (finding): `size()` and `empty()` (ConcurrentQueue.h:32-33) read the queue without taking the lock: there are reachable states in which one thread is about to modify the queue inside its critical section while another, outside any critical section, is free to read it, i.e. a data race.
- `C33_bug_returns_early` (Verif/Threads/PropsPool.lean): The property is false: `sync()` can return while a task sent before it has not even been started. A worker that has popped a task is neither counted by `task_queue_.empty()` nor marked `BUSY` until line 44, so `sync()` sees an empty queue and all workers idle. One worker, one client, one task suffice.
- `C33_bug_two_syncs` (Verif/Threads/PropsPool.lean): Two clients calling `sync()` concurrently: workers call `notify_one`, so one of the two can stay blocked forever although all tasks are done, all workers sleep and nobody else will notify.
- `C34_bug_lost_task` (Verif/Threads/PropsPool.lean): A task sent before shutdown() can be left in the queue for ever: it is not run and, as the queue still owns its `packaged_task`, its future never becomes ready while the pool exists.
- `C34_bug_popped_task_dropped` (Verif/Threads/PropsPool.lean): A task that a worker has already taken from the queue can be destroyed unrun: line 43 returns when `kill_` was set between the wait and the test, although a task was popped.
- `C34_bug_data_race` (Verif/Threads/PropsPool.lean): Data race on `kill_`: a state is reachable in which a worker is about to read `kill_` on line 43 (no lock held) and another thread is about to write it on line 104; both accesses are enabled. Likewise for `state_`: a worker is about to write `state_[0]` (line 44) while sync() is about to read it (line 96).
- `C36_bug_empty_column` (Verif/LinAlg/PropsKron.lean): When the last columns of the left operand are empty, constructing the iterator reads an inner index past the end of the storage (`lhs_it.index()` is evaluated before the column is known to be non-empty, line 187).
- `C36_bug_last_column` (Verif/LinAlg/PropsKronExact.lean): **C36**: every product whose left operand has an empty last column reads past the end of the storage when its last column is iterated.
- `C38_bug_offsets` (Verif/LinAlg/PropsBlock.lean): Three block rows of heights 1, 2, 2: the entry stored in the first row of the third block belongs to global row 3, iteration reports row 2 (`innerOffset` is advanced by the height of the block in the first row instead of the one just left).
- `C41_bug_overflow` (Verif/Combinatorics/PropsInt.lean): From 13 elements on the number of combinations cannot be computed, although it is small (13 for one element out of 13): the factorials overflow, and `combinations<K, N>` does not compile.
- `C43_bug_tet_edge` (Verif/Geometry/PropsSimplex.lean): `contains` answers INSIDE, documented as the interior, for the midpoint of an edge of a tetrahedron: ON_FACE is reported only when exactly one barycentric coordinate vanishes.
- `C45_bug_not_nearest` (Verif/Geometry/PropsNearest.lean): `nearest` on the unit triangle at (1/2, -1): for no tolerance and no tie-breaking is the result a nearest point of the triangle. The recursion keeps the two vertices nearest to p and ends on a segment in the plane, where it returns one of its end points although the projection (1/2, 0) falls inside.
- `C45_bug_far_end` (Verif/Geometry/PropsNearest.lean): `nearest` of a segment in the plane may return the end point that is farther: from (9/10, 1) the segment from (0, 0) to (1, 0) answers (0, 0) for all tolerances below 1, although (1, 0) is nearer (and (9/10, 0) is the nearest point).
- `C46_bug_line_normal` (Verif/Geometry/PropsPlane.lean): For a line in the plane the stored normal is `(-dx, dy)` instead of `(-dy, dx)`: `eval` does not vanish at the second point the line was built from, and vanishes at a point off the line.
- `C46_bug_second_point` (Verif/Geometry/PropsPlane.lean): For every line, in the plane and in the space, the value of `eval` at the second point the line was built from is `dy² - dx²`: zero only for lines at 45 degrees.
- `C46_bug_not_unit` (Verif/Geometry/PropsPlane.lean): The normal of a line in the plane is not normalised: the result of `normalized()` is discarded.
- `C47_bug_last` (Verif/Geometry/PropsVoronoi.lean): locate at the last node of the mesh reads past the end of the node vector.
- `C48_bug_flat` (Verif/Geometry/PropsFlat.lean): C48 (finding): on a mesh which is flat in a direction, for instance a plane surface in space, the scaled coordinates in this direction are NaN, every comparison with them is false and the search never descends below the first levels of its tree: it returns at most `2 ^ (k + 1) - 1` cells (seven for a surface `z = c`), whatever the point. Some cell of every larger mesh is never found: at points which are in this cell only, `locate` answers -1.
- `C49_bug_short_last_span` (Verif/Splines/PropsSpline.lean): If the last span is shorter than the tolerance (50 machine epsilons) the functions of the last two spans are both active near its left end: with knots 0, 1, 1 + tol / 2 the order 0 basis sums to 2 at 1 - tol / 4.
- `C50_bug_past_the_end` (Verif/Splines/PropsSpline.lean): Just past the last knot the last function of order 0 is still one: it is non-zero outside of its support (and higher order functions extrapolate).
- `C50_bug_every_basis` (Verif/Splines/PropsWhen.lean): **C50** fails for every basis: at each point past the last knot by less than the tolerance the last basis function is the power R of the position relative to the last span, which exceeds one if R is positive (and is one if R = 0), although the point lies outside of its support.
- `C51_bug_short_last_span` (Verif/Splines/PropsSpline.lean): The hypothesis on the last span is needed. With the knots 0, 2, 2 + tol / 2 the second function of order 1 jumps at the point 2 - tol / 2, which lies strictly between the first two knots: from there on the function of the last span is added to it. So it has no derivative there, whatever `derive<1>()` answers.
- `C52_bug_nonsymmetric` (Verif/Splines/PropsAssembly.lean): For an operator that is not symmetric the inner loop runs to the number of basis functions included: the assembler reads one basis function past the end, whatever the basis.
- `C56_bug_dimension_three` (Verif/FEM/PropsLagrange.lean): In dimension 3 the two enumerations disagree: the first edge is (0, 1), but the node of the first edge dof is the midpoint of vertices 1 and 2; only the dof of edge (0, 2) is where it should be.
- `C58_bug_outside` (Verif/FEM/PropsEval.lean): The basis expansion at a location outside of the domain reads a cell with number -1.
- `C58_bug_order_two` (Verif/FEM/PropsEval.lean): For second order elements the basis expansion indexes the node ids of the cell with the local number of an edge dof, past the end, whatever the mesh and the location.
- `C60_bug_diffusion` (Verif/PDE/PropsOperators.lean): The diffusion operator is flagged symmetric whatever its tensor: with the tensor [[1, 1], [0, 1]] on the reference triangle the assembled matrix is not the one of the weak form (entry (1, 2) is 0 instead of -1/2).
- `C62_bug_dof_zero` (Verif/PDE/PropsSolver.lean): A loop over the boundary dofs starts at dof 0 without looking whether it is on the boundary: when dof 0 is an interior dof, `set_dirichlet_bc` overwrites its equation, too, by `u_0 = g_0`.
- `C63_bug_no_boundary_data` (Verif/PDE/PropsSolver.lean): A parabolic problem without Dirichlet data (homogeneous Neumann conditions): `PDE::solve` skips `set_dirichlet_bc` but the time loop still reads the empty boundary data, out of range, for dof 0 if for no other.
- `C63_bug_dof_zero` (Verif/PDE/PropsSolver.lean): As in the stationary case, dof 0 is given the boundary datum at every time step even when it is an interior dof.
- `C66_bug_returns_old` (Verif/Optim/PropsBfgs.lean): BFGS returns the iterate *before* the stationary point it has found: if one gradient step from `x0` reaches a point where the gradient is zero, the point returned is `x0` itself, with its non-zero gradient, and its value.
- `C72_bug_empty_field` (Verif/IO/PropsCsv.lean): Bug: an empty field (a usual way to write a missing value) leaves the cell of the matrix unwritten; reading it later gives an indeterminate value instead of not-a-number.
- `C72_bug_carriage_return` (Verif/IO/PropsCsv.lean): Bug: with Windows line ends the last field keeps its carriage return, so that a missing value `NA` in the last column is not recognised: it is read as the number the string `"NA\r"` gives, which is 0 for `operator>>`.
- `C73_bug_stale_value` (Verif/IO/PropsCsv.lean): Bug: in a sparse file an empty value field repeats the value of the previous line.
- `C73_bug_zero_based` (Verif/IO/PropsCsv.lean): Bug: a zero-based sparse file (row or column number 0) makes the reader build a triplet at a negative position, which is undefined behaviour.
- `C75_bug_multipoint_zm` (Verif/IO/PropsShp.lean): The `z` and `m` values of multipoints are lost: `read_zm_block` takes the vector by value, so that `z` and `m` are empty for every file of MultiPointZ or MultiPointM records, whatever they hold.
- `C75_bug_long_file` (Verif/IO/PropsShp.lean): The format gives the length of the file in words of two bytes, in 32 bits: files of up to 4 GiB. For a file of 2 GiB and more the length in bytes, computed in `int`, overflows: undefined behaviour.
- `C75_bug_no_ring` (Verif/IO/PropsShp.lean): A polygon record without rings (allowed for an empty shape) makes the reader write `ring_end[-1]`: undefined behaviour.
- `C75_bug_null_shape` (Verif/IO/PropsShp.lean): A file with a Null shape (type 0, allowed among the records of any file) is not read correctly: the type of the record is skipped, and the bytes of the next record are taken for coordinates, so that the single point behind the null shape is lost.
- `C75_bug_optional_measures` (Verif/IO/PropsShp.lean): The measures of PolygonZ records are optional in the format; a record without them is not read correctly: the reader takes them from the bytes behind the record (here the end of the buffer).
- `C76_bug_last_point` (Verif/IO/PropsShp.lean): The rings of a polygon with two or more rings do not cover its points: `ring_end[i] = ring_begin[i + 1] - 1` is used as the end of a half-open range, and the last point of every ring but the last one is never visited.
- `C77_bug_stale` (Verif/IO/PropsDbf.lean): Converting a text which `std::from_chars` does not accept repeats the value of the record before (zero for the first record).
- `C77_bug_padded` (Verif/IO/PropsDbf.lean): Numbers are stored right-justified and padded with blanks in the format; `std::from_chars` does not skip blanks, so that `get_as<int>` of a column holding 10, 7, 12 in fields of two bytes gives 10, 10, 12.
- `C77_bug_long_field` (Verif/IO/PropsDbf.lean): Fields of 128 bytes and more (the format allows up to 254): the length is read as a signed byte, and reserving a negative length throws as soon as there is a record.
- `C77_bug_no_record` (Verif/IO/PropsDbf.lean): In a file without records no column can be accessed, although its fields are described: `get_as` fails its assertion.
- `C78_bug_self_assignment` (Verif/Utils/PropsErasure.lean): Assigning a variable to itself deletes the object and then copies it: undefined behaviour.
- `C78_bug_self_move` (Verif/Utils/PropsErasure.lean): Moving a variable onto itself leaves it with a pointer to the deleted object: its destructor deletes it again.
- `C79_bug_many_methods` (Verif/Utils/PropsErasure.lean): Beyond `2 ^ 15` methods the offset wraps around: the object can be made, but calling a method that comes after `2 ^ 15` others (and before `2 ^ 16`) indexes the table at a negative position: undefined behaviour.
- `C80_bug_moved_from` (Verif/Utils/PropsErasure.lean): A moved-from wrapper still converts to true, although it holds no object: the move constructor of `erase` copies the table of functions (`vtable_handler(other)` with a named rvalue reference), and calling a method on the moved-from wrapper passes a null object.
- `C80_bug_copy_of_empty` (Verif/Utils/PropsErasure.lean): Copying or moving an empty wrapper leaves the size of the copy uninitialised: converting the copy to `bool` reads it.
- `C81_bug_index_of_repeated` (Verif/Utils/PropsTypeLists.lean): `index_of` in a list with repetitions is not a position of the type: the fold adds up all of them.
- `C81_bug_two_arguments` (Verif/Utils/PropsTypeLists.lean): Instances with two arguments, which `is_instance_of` recognises, are not found by `has_instance_of`.
- `C82_bug_minus` (Verif/PDE/PropsOperators.lean): The documented use `dt - L`: removing the time derivative from `dt - laplacian` gives `laplacian`, with the opposite sign.
- `C82_bug_scaled` (Verif/PDE/PropsOperators.lean): Removing a time derivative multiplied by a scalar leaves the scalar in the form: `2 * dt + L` becomes `2 + L`.
- `C82_bug_negated` (Verif/PDE/PropsOperators.lean): Removing a negated time derivative (`-dt + laplacian`) does not compile.
- `C83_bug_unary` (Verif/Fields/PropsExpr.lean): Bug: `sin`, `cos`, `tan`, `exp` and `log` of an expression do not pass `forward` on, so `exp` of a discretised field is evaluated with the initial value 0 of the field, whatever its data and the index.
- `C83_bug_dot_row` (Verif/Fields/PropsExpr.lean): Bug: a vector expression dotted with a matrix row on the right, `v.dot(A.row(i))`, sums only the first product.
- `C83_bug_row_row` (Verif/Fields/PropsExpr.lean): Bug: the dot product of two matrix rows, `A.row(i).dot(A.row(j))`, sums only the first product.
- `C83_bug_mulVec_row` (Verif/Fields/PropsExpr.lean): Bug: a matrix times a matrix row, `A * B.row(j)`, computes only the first product of each component.
- `C83_bug_row_truncated` (Verif/Fields/PropsExpr.lean): Bug: evaluating a row of an `m × k` matrix produces `m` components instead of `k`: with more columns than rows the tail is lost.
- `C83_bug_row_overrun` (Verif/Fields/PropsExpr.lean): Bug: with more rows than columns, evaluating a row reads outside the matrix.
- `C85_bug_dofs_coords` (Verif/Splines/PropsAssembly.lean): The coordinates of the degrees of freedom returned for a spline basis are one more than the basis functions (the last knot appears R + 1 times).
- `C86_bug_tetrahedra` (Verif/Quadrature/PropsTables.lean): For second order tetrahedra the chosen 5 point rule has degree 3 only: the mass of x² against itself is off by more than 2e-3 (the exact mean is 1/35).
- `C90_bug_stale_flag` (Verif/Utils/PropsSparseLU.lean): **C90, defect.** A failed `compute` does not reset the flag: after factorizing an invertible matrix and then a singular one the wrapper still converts to `true`, and solving with it is undefined.
- `C92_bug_indefinite_mass` (Verif/PDE/PropsForm.lean): **C92, defect.** The mass matrix of second order tetrahedra is not positive semidefinite: the rule selected for them has a negative weight at the centroid, and on every mesh made of one tetrahedron there are coefficients `u` with `uᵀ M u < 0`. (A Cholesky factorization of it fails.)
- `C93_bug_outside` (Verif/Geometry/PropsWalk.lean): **C93, defect.** A point that no cell contains is not reported as such (the comment and the last line of the function promise -1): from every starting cell the walk leaves the mesh, which is undefined behaviour, or never returns.
- `C93_bug_nonconvex` (Verif/Geometry/PropsWalk.lean): **C93, defect.** On a connected mesh of a domain that is not convex the walk may step over a boundary edge, and the row -1 of the table of cells is read, although a cell contains the point.
- `C95_bug_contains` (Verif/Geometry/PropsVoronoi2.lean): **C95, defect.** `contains` of a planar cell always throws: the point is converted to a matrix with one column, and `locate` requires two.
- `C95_bug_boundary` (Verif/Geometry/PropsVoronoi2Edges.lean): C95 (finding): the cell of a boundary site is not always reported on the boundary. On a valid Delaunay mesh of three triangles around the node 0 the boundary vertices of its cell (the site and two midpoints) alternate with the circumcenters, which fall outside of the domain.
- `C95_bug_nearest` (Verif/Geometry/PropsVoronoi2Geo.lean): **C95, defect.** On a Delaunay mesh the site returned for a location in the interior of a triangle is not always the nearest one: the nearest site need not be a vertex of the triangle that contains the location.
- `C97_bug_interior_edge` (Verif/Triang/PropsEdges3.lean): C97 (finding): an edge inside the domain whose two ends are on the boundary is reported as a boundary edge. In the octahedron cut around the segment 0-1 every node is on the boundary, the segment is interior (no boundary face contains it), and it is marked.
- `C98_bug_inner_cell` (Verif/Triang/PropsEdges3.lean): C98 (finding): a triangle none of whose edges is on the boundary is reported on the boundary if two of its vertices are. In a triangle split in four through the midpoints of its sides, the central cell has all its vertices on the boundary and a neighbour across each edge.
- `C99_bug_last_face` (Verif/Triang/PropsSurface.lean): C99 (finding): whenever the last face of the mesh is a boundary face the surface is built from uninitialised memory: the traversal of the boundary faces leaves the last one out (C22), so the last row of the matrix of the cells, allocated for all of them, is never written.
- `C99_bug_tetrahedron` (Verif/Triang/PropsSurface.lean): C99 (finding): the surface of a single tetrahedron, and of two glued ones, is undefined.
- `C100_bug_vertex_or_point` (Verif/Geometry/PropsProject.lean): C100 (finding): whatever the mesh, the exact projection of a point is the point itself or a node of the mesh: it never falls inside a cell, an edge or a face.
- `C100_bug_vertex` (Verif/Geometry/PropsProject.lean): C100 (finding): the exact projection of (1/2, -1) on the unit triangle is not the nearest point of the triangle, (1/2, 0), for any tolerance and tie-breaking.
- `C100_bug_undefined` (Verif/Geometry/PropsProject.lean): C100 (finding): the default projection can dereference a null pointer, even when asked for a node of the mesh: on the nodes (0,0), (1,3), (2,0), (3,3), which need no rearrangement when the tree is built, the search for (1,3) is undefined.
- `C101_bug_single_candidate` (Verif/LinAlg/PropsFspai.lean): C101 (finding): candidates enter the pattern only if their value is *strictly* above the average of all candidates, so a single candidate never does. If no row has more than one entry right of the diagonal (for instance a tridiagonal matrix), the factor stays diagonal for every choice of the parameters: raising `alpha` or `beta` or lowering `epsilon` never improves the approximation.
- `C101_bug_no_step` (Verif/LinAlg/PropsFspai.lean): C101 (finding): with `alpha = 0` the factor is the zero matrix.
- `C101_bug_never_full` (Verif/LinAlg/PropsFspai.lean): C101 (finding): the average rule never lets the worst candidate in, so the pattern of a column never becomes the whole lower triangle: for every matrix, all parameters and any number of calls to `compute`, every column of L but the last one has a zero below the diagonal.
- `C101_bug_never_exact` (Verif/LinAlg/PropsFspai.lean): C101 (finding): consequently the approximation is never exact when the last two unknowns are coupled, whatever `alpha`, `beta` and `epsilon`.
- `C105_bug_sign` (Verif/Splines/PropsSolver.lean): C105 (finding): the bilaplacian, documented as `psi_i'' psi_j''`, is assembled with the opposite sign: the matrix of `bilaplacian<SPLINE>()` is negative semidefinite.
- `C105_bug_no_forcing` (Verif/Splines/PropsSolver.lean): C105 (finding): the discretized forcing is never computed and stays a matrix without rows, so that solving the system is undefined behaviour for every problem whose matrix can be factorized.
- `C105_bug_dirichlet` (Verif/Splines/PropsSolver.lean): C105 (finding): Dirichlet conditions are ignored.
- `C105_bug_dof_coords` (Verif/Splines/PropsSolver.lean): C105 (finding): `dof_coords()` lists the nodes of the domain, `R - 1` rows less than `n_dofs()`.
- `C106_bug_nonconst_copy` (Verif/Utils/PropsStorage.lean): C106 (finding): a `non_owning_storage` constructed from another one that is not const points to that storage and not to its object: the constructor from an arbitrary `T&` is preferred to the copy constructor.
- `C113_bug_vector_row` (Verif/BinMtx/PropsShape.lean): `row(i)` of a column vector (`BinaryVector`) is a block whose first row and whose first column are both `i`, so that it reads the element `2 i` of the storage: on a vector of four elements of which only the second is true `row(1)` reads false, and on a vector of forty elements `row(39)` reads out of range.
- `C113_bug_block_write` (Verif/BinMtx/PropsShape.lean): The setters of a block do not compare the indices with the sizes of the block, while its getter does: through the block of the first row and column of a 3 × 3 matrix the coefficient (2,2) of the matrix is written without an exception.
- `C113_bug_dense_static` (Verif/BinMtx/PropsShape.lean): A binary matrix with static sizes is not cleared before a dense matrix is copied into it: the matrix of ones assigned from a zero matrix still holds ones, and construction from a zero matrix shows what the uninitialised storage held.
- `C113_bug_resize` (Verif/BinMtx/PropsShape.lean): A matrix with a static number of rows other than one and a dynamic number of columns can not be resized, to whatever size, nor be assigned from a dense matrix: the assertion at binary_matrix.h:142 never holds.
- `C113_bug_matrix_to_vector` (Verif/BinMtx/PropsShape.lean): A matrix with several columns assigned to a vector of dynamic length passes the static assertion and does not throw: the vector gets the number of rows of the matrix and the first elements of its storage, which are those of its first row.
- `C113_bug_vector_sizes` (Verif/BinMtx/PropsShape.lean): A vector with a static size can be assigned from one with another static size: the static assertion passes whatever the sizes, the vector takes the size of the other one, and if this needs more packs they are written past the end of the storage.
- `C115_bug_plus` (Verif/Triang/PropsIterBack.lean): C115 (finding): evaluating `it + 1` moves `it` itself: on every mesh with at least two cells, `it` refers to cell 1 after `auto it = cells_begin(); it + 1;`. The end of the cells cannot be written as `cells_begin() + n_cells()`: this builds the view of a cell that does not exist.
- `C115_bug_faces` (Verif/Triang/PropsIterBack.lean): C115 (finding): the iterator over all the faces of a 3D mesh filters them with a vector that has one bit for each edge. On every mesh that has more faces than bits are stored for its edges the iteration reads past the end of this vector (a fine mesh of a solid has about twelve faces for every seven edges).
- `C115_bug_edges_end` (Verif/Triang/PropsIterBack.lean): C115 (finding): decrementing the iterator past the last edge builds the view of an edge that does not exist, on every 3D mesh.
- `C115_bug_decrement` (Verif/Triang/PropsIterBack.lean): C115 (finding): decrementing does not undo incrementing. When the iterator refers to `i` and the next entity that passes the filter is `j`, then after `++it; --it;` it refers to `j` or to `j + 1`, if the two operations are defined at all.
- `C115_bug_backward` (Verif/Triang/PropsIterBack.lean): C115 (finding): when all the faces are on the boundary (as those of one tetrahedron), going back from the end of the boundary faces to their beginning misses faces 0 and 1.
- `C116_bug_network_range` (Verif/Mesh1D/PropsUniform.lean): C116 (finding): the constructor of a linear network assigns the rows of the smallest and largest coordinates, which have two entries as the nodes are points of the plane, to rows with one entry: an assertion of Eigen fails for every network.
- `C117_bug_conditions_stay` (Verif/PDE/PropsHistory.lean): Taking the boundary data away (`set_dirichlet_bc` with an empty matrix) after a `solve` does not take the conditions away: `solve` goes on imposing those of the removed data, since the rows of the system were overwritten and `PDE::solve` skips empty boundary data. Only `init` removes them.
- `C117_bug_stale_solution` (Verif/PDE/PropsHistory.lean): When the system cannot be factorized `solve` returns normally and `solution()` is still the solution of an earlier problem; the flag `success` that would tell is a member of the solver which `PDE` does not expose.
- `C117_bug_more_columns` (Verif/PDE/PropsHistory.lean): Giving a parabolic problem a forcing with more columns after `init` makes `solve` read beyond the end of the load vector, which has the columns of the forcing at `init`: `solve` takes the number of steps from the new data.
- `C118_bug_trailing_slash` (Verif/IO/PropsShapeFile.lean): Opening a folder whose path ends with a slash looks for files with an empty name: `data/roads/` reads `data/roads//.shp`.
- `C118_bug_prj` (Verif/IO/PropsShapeFile.lean): A `.prj` file whose first line does not contain `GEOGCS` and is shorter than seven characters (for instance an empty file) makes the constructor throw `std::out_of_range`: `npos + 8` wraps to 7, a position beyond the end of the line.
- `C118_bug_file_size` (Verif/IO/PropsShapeFile.lean): Printing a shapefile shows twice the size of the file: the length in the header is converted from 16-bit words to bytes when it is read, and multiplied by two again. For a well-formed file of points.
- `C118_bug_no_fields` (Verif/IO/PropsShapeFile.lean): Printing a shapefile whose table has no fields (or is missing) reads outside of the vector of the fields.
- `C118_bug_type_name` (Verif/IO/PropsShapeFile.lean): The kind of records with z or m is printed as an empty string.
- `C118_bug_print_overflow` (Verif/IO/PropsShapeFile.lean): The size of the file is doubled in a 32 bit integer: printing a shapefile whose header declares at least 2^30, or less than -2^30, is undefined. The header counts 16-bit words, so that files of 2 GB are enough.
- `C119_bug_store` (Verif/Fields/PropsDynamic.lean): Bug: storing an expression over fields of `n ≥ 1` variables in a `ScalarField` loses the number of variables: the stored field has the right values, but adding it to any field of `n` variables throws and its gradient cannot be evaluated at any point with `n` coordinates.
- `C119_bug_callable` (Verif/Fields/PropsDynamic.lean): Bug: a field constructed from a callable has no variables either: any operation on it builds an expression which throws at every point with at least one coordinate.
- `C119_bug_constant` (Verif/Fields/PropsDynamic.lean): Bug: adding a `ConstantField` or the zero field to a field of `n ≥ 1` variables throws.
- `C119_bug_dot_size` (Verif/Fields/PropsDynamic.lean): Bug: a dot product is a scalar expression without variables: adding it to a field of `m ≥ 1` variables throws.
- `C119_bug_negation` (Verif/Fields/PropsDynamic.lean): Bug: the negation of a vector expression throws at every point, and adding it to any expression from `m` variables throws.
- `C119_bug_from_list` (Verif/Fields/PropsDynamic.lean): Bug: a vector field with run-time sizes cannot be constructed from a vector of callables.
- `C119_bug_from_expression` (Verif/Fields/PropsDynamic.lean): Bug: nor from an expression.
- `C119_bug_component` (Verif/Fields/PropsDynamic.lean): Bug: copying into component `i` of a vector field a `ScalarField` constructed from a callable makes every sum or difference with another field from `m ≥ 1` variables throw at the points of that dimension.
- `C119_bug_matrix_sum` (Verif/Fields/PropsDynamic.lean): Bug: sums and differences of matrix fields, and their multiples and negations, ask for a result of negative size.
- `C119_bug_matrix_vector` (Verif/Fields/PropsDynamic.lean): Bug: the product of a matrix and a vector throws at every point, and so does every component of it; so do rows and columns.
- `C120_bug_closed_form` (Verif/PDE/PropsWeakTree.lean): Coefficients given by a formula (`ScalarField` and the like are accepted) are evaluated at the nodes of the reference element instead of the nodes of the cell: on the tetrahedron with nodes (1, 0, 0), (2, 0, 0), (1, 1, 0), (1, 0, 1) the reaction coefficient c(x, y, z) = x gives the diagonal entry 1/384 instead of 5/384, the quadrature of c times the square of the first linear function.
- `C120_bug_function_of_data` (Verif/PDE/PropsWeakTree.lean): A reaction coefficient computed from data by `exp`, `log` and the like never moves (see `C83_bug_unary`): whatever the data and the cell, the coefficient in the local integral is the function at 0.
- `C121_bug_two_syncs` (Verif/Threads/PropsFair.lean): Two clients: `sync()` need not return even if the scheduler is fair and the pool is never shut down. In this fair run both clients wait in `sync()`, the worker notifies one of them, and the other one waits for ever although its task is done and the pool is idle.
- `C121_bug_sync_during_shutdown` (Verif/Threads/PropsFair.lean): A client inside `sync()` when another one shuts the pool down never returns, whatever happens later, if a task is left in the queue: the workers have exited and `sync()` waits for the queue to be empty.
- `C122_bug_cubic_mass` (Verif/Splines/PropsExact.lean): With the rule of the library (three Gauss-Legendre nodes) the mass matrix of cubic splines is not the Gram matrix of the basis: on the knots 0 and 1 the first diagonal entry is off by more than 3/10000 from the integral of the square of the first function, while spline_solver_base.h:85 announces a rule which is exact for the order of the splines.
- `C124_bug_copy` (Verif/Geometry/PropsMeshObject.lean): Bug: a copy of a mesh that has been asked for a location refers to the original: once the original is destroyed (a mesh returned by value, an element of a `std::vector` that has grown) a request made on the copy reads freed memory.
- `C124_bug_move` (Verif/Geometry/PropsMeshObject.lean): Bug: a mesh that has been asked for a location and is then moved (returned by value, element of a `std::vector` that grows) refers to the object it was moved from, whose matrices are empty: a request made on it reads them out of range.
- `C124_bug_self_assign` (Verif/Geometry/PropsMeshObject.lean): Bug: assigning a mesh that has been asked for a location to itself is undefined.
- `C124_bug_reassigned` (Verif/Geometry/PropsMeshObject.lean): Bug: a mesh that was asked for a location, then copied and assigned another mesh, makes its copy answer for the new mesh: after the assignment of the square with its two triangles in the other order, the copy of the square reports its lower triangle's points outside of that triangle.
- `C124_bug_patch` (Verif/Geometry/PropsMeshObject.lean): Likewise for `node_patch`: the copy of the square does not list the only triangle of the node 0 in the patch of that node.
- `C125_bug_unit` (Verif/Triang/PropsHandles.lean): C125 (finding): the unit simplex of a dimension less than that of the space writes vertices it does not have, outside the matrix of its coordinates: `Simplex<2, 3>::Unit()` is undefined behaviour.
- `C126_bug_forcing_data` (Verif/PDE/PropsWrapper.lean): C126 (finding): the forcing of a problem whose forcing is a field is read through the wrapper as a matrix: undefined behaviour.
- `C126_bug_setters` (Verif/PDE/PropsWrapper.lean): C126 (finding): `set_forcing` of the wrapper accepts an argument of any type, for example a vector for a problem whose forcing is a matrix, and `set_differential_operator` any operator; if it is not the type of the problem the object is read as another one: undefined behaviour, without a message of the compiler.
- `C129_bug_singular_mass` (Verif/Splines/PropsMass.lean): The mass matrix is singular when the nodes of all spans are fewer than the functions: with the rule of the library (three nodes) this is the case for cubic splines on two knots, see the example below.
- `C129_bug_cubic_two_knots` (Verif/Splines/PropsMass.lean): With the rule of the library the mass matrix of cubic splines on two knots is singular.
- `C130_bug_no_rows` (Verif/BinMtx/PropsText.lean): **C130, refuted without rows.** Printing an expression with no rows and at least one column reads the coefficients of row -1 of the temporary: every such call is undefined behaviour (negative shift or negative index), although there is nothing to print.
- `C137_bug_constructor` (Verif/BinMtx/PropsInt.lean): The sizes of a matrix are `int`s, but their product is computed as an `int` as well (binary_matrix.h:57, 146, 510): constructing a matrix with `2^31` coefficients or more, such as 50000 rows and columns (300 MB), is undefined behaviour.
- `C137_bug_count` (Verif/BinMtx/PropsInt.lean): binary_matrix.h:394 computes `i + PackSize` also for the last pack: counting in a matrix whose number of coefficients is an `int` not less than `2^31 - 64` is undefined behaviour, whatever the coefficients.
- `C137_bug_any` (Verif/BinMtx/PropsInt.lean): Likewise `any` (binary_matrix.h:373 computes `i + PackSize` for the pack after the last full one) on a matrix without ones.
- `C141_bug_resize` (Verif/LinAlg/PropsBlockHist.lean): Assigning a matrix of another size to `block(r, c)`, which hands out a writable reference to the block, goes unnoticed: the dimensions and offsets are those of the constructor. For every block of at least two rows and one column in the corner of the matrix: after `block(0, 0) = M` with M one row shorter, rows() is unchanged and reading the last row of the block, a position inside the matrix, is an access outside the storage.
- `C141_bug_default` (Verif/LinAlg/PropsBlockHist.lean): A default constructed block matrix has no blocks: `block(r, c)` accepts every position of the block structure and subscripts an empty vector, so the matrix cannot be filled block by block.
- `C144_bug_self_assign` (Verif/BinTree/PropsHeap.lean): Assigning a tree to itself deletes all its nodes and then reads its null root: undefined behaviour, for every tree that is not empty.
- `C144_bug_copy_empty` (Verif/BinTree/PropsHeap.lean): Copying an empty tree throws, so that an empty tree cannot be returned or stored by value.
- `C144_bug_parent` (Verif/BinTree/PropsHeap.lean): After a move the children of the root have a parent pointer to the deleted root of the source.
- `C145_bug_sync` (Verif/Threads/PropsRace.lean): **C145 (bug): `sync()` races with the workers.** With one worker and one client that sends a task, waits for its future and then calls `sync()`: the client reads `state_[0]` (ThreadPool.h:96) while the worker, having fulfilled the future, writes it (46). Neither access is protected. The write of `sync_` (93) is not ordered with the worker's read of it (47) either.
- `C145_bug_sync_result` (Verif/Threads/PropsRace.lean): **C145 (bug): `sync()` does not make the results visible.** A client sends a task and calls `sync()`, which returns because the queue is empty and the only worker is idle; reading what the task wrote is then a data race: nothing the worker did is ordered before it.
- `C145_bug_sync_queue` (Verif/Threads/PropsRace.lean): **C145 (bug): `sync()` reads the queue without its lock** (ThreadPool.h:95, ConcurrentQueue.h `empty`), so it races with another client that sends a task.
- `C145_bug_shutdown` (Verif/Threads/PropsRace.lean): **C145 (bug): `shutdown()` races with a worker that has taken a task.** The worker reads `kill_` at line 43 after unlocking `mutex_`, the client writes it at line 104: one task, one worker, no `sync()`.
- `C148_bug_nan` (Verif/Optim/PropsFloat.lean): **C148 fails when the objective is NaN**: both line searches accept the first step whenever the objective and the gradient are NaN there, because no comparison with NaN is true; an objective with a logarithm or a square root is left for ever as soon as the first step leaves its domain.
- `C148_bug_backtracking_hangs` (Verif/Optim/PropsFloat.lean): **C148 fails when the factor is at least 3/4**: on the objective 2^70 + v², from v = 1 along minus the gradient, the backtracking line search never returns, for every factor from 3/4 on and every constant from 1/2 (the default) on. The objective is flat in floating point, the test fails at every step, and the step does not become zero: the smallest numbers of the format are rounded to themselves when multiplied by the factor.
- `C148_bug_wolfe_hangs` (Verif/Optim/PropsFloat.lean): **C148 fails for the Wolfe line search**: on the objective 1 + v², from v = 3·2^-31 (about 1.4e-9) along minus the gradient, the line search never returns, for every first step between 2^-900 and 1, every `c1` between 2^-14 and 1 and every `c2` up to 15/16: in particular with the default parameters 1, 1e-4 and 0.9. The objective is flat in floating point around its minimum, so the first condition fails for every step but those so small that the slope underflows, and these do not change the point, so that the second condition fails.
- `C149_bug_grid` (Verif/Optim/PropsNan.lean): **C149 fails when the objective is NaN at the first point of the grid**: the first point and NaN are returned, whatever the values at all the other points, because no comparison with NaN is true.
- `C149_bug_gradient_descent` (Verif/Optim/PropsNan.lean): **C149 fails for gradient descent**: on an objective defined for v ≥ 0 only (as with a logarithm or a square root), with gradient 1, from v = 1 and with the default parameters of the line search, `optimize()` returns v = -1, where the objective is NaN, after one iteration: the line search accepts the NaN and the loop ends because the norm of the gradient, NaN, is not greater than the tolerance.
- `C150_bug_vertex` (Verif/Geometry/PropsFloatTriangle.lean): **C150**, negation for triangles that are not wide. On the mesh with the one cell (0,0), (3,2), (9,7), the node (9,7), which is a vertex of that cell, is not found: the inverse is rounded, the second coordinate comes out as -2^-48, and the tolerance of the code is ten times 2^-52. locate answers -1, "outside the domain". simplex.h:119-123, 186.
- `C150_bug_interior` (Verif/Geometry/PropsFloatTriangle.lean): **C150**, negation inside the domain. The cells (-8,-7), (0,0), (6,6) and (-7,-8), (0,0), (6,6) share a side. The point (3,3) in the middle of that side is in the interior of the domain, and both cells refuse it: the first coordinate comes out as -2^-48 in each. locate answers -1, so that the domain seems to have a hole there: the evaluation matrix has a row of zeros for that point, and evaluating an expansion there reads the cell with number -1 (lagrangian_basis.h:189-192, 220). simplex.h:119-123, 186.
- `C153_bug_interval` (Verif/Geometry/PropsNanLocate.lean): **C153 fails for NaN on every interval mesh**: `locate` never returns.
- `C153_bug_contains` (Verif/Geometry/PropsNanLocate.lean): **C153 fails for NaN in every cell**: a location with a coordinate that is not a number is reported to be inside, whatever the cell, its dimension and that of the space.
- `C153_bug_tree` (Verif/Geometry/PropsNanLocate.lean): **C153 fails for NaN on every triangulation**: a location all of whose coordinates are not a number is reported to be in a cell of the mesh.
- `C153_bug_walk` (Verif/Geometry/PropsNanLocate.lean): **C153 fails for NaN in the barycentric walk**: a location with a coordinate that is not a number is reported to be in the cell, drawn at random, where the walk starts.
- `C153_bug_nearest` (Verif/Geometry/PropsNanLocate.lean): **C153 fails for NaN in the nearest neighbour search**: asked for a location that is not a number, `nn_search` returns an iterator that points to no node of the tree although there are nodes, or dereferences a null pointer.
- `C153_bug_infinite` (Verif/Geometry/PropsNanLocate.lean): **C153 fails for infinite locations in `contains` and in the barycentric walk**: on the triangle of vertices (0, 0), (1, 0) and (0, 1) the location (inf, 0) is reported to be on a vertex, and the walk returns the triangle (0 times infinity is not a number and passes every test).
- `C154_bug_large` (Verif/Fields/PropsAccuracy.lean): **C154 fails at large coordinates**: in double precision, with the default step 1e-3 or any step less than 2^-9, the numerical derivative with respect to a coordinate of size 2^46 (7e13) or more is zero, whatever the function.
- `C156_bug_copy` (Verif/Optim/PropsObjects.lean): **C156 fails for copies**: `value()` of a copy of an optimizer that has found its optimum reads a number that was never written.
- `C156_bug_assign` (Verif/Optim/PropsObjects.lean): **C156 fails for assignments**: after `b = a` the value of `b` is the one `b` had found, not that of `a`.
- `C156_bug_wrapper` (Verif/Optim/PropsObjects.lean): **C156 fails for wrappers**: an optimizer that has found its optimum loses it when it is put in a wrapper, and a copy of a wrapper loses what the wrapper has found: `value()` reads a number that was never written.
- `C156_bug_default` (Verif/Optim/PropsObjects.lean): **C156 fails for default constructed optimizers**: `optimize` reads the parameters, that were never written.
- `C156_bug_argument` (Verif/Optim/PropsObjects.lean): **C156 fails for starts of another type**: the wrapper accepts them, and calls the function compiled for vectors.
- `C157_bug_blank_line` (Verif/IO/PropsNumber.lean): **C157 fails for blank lines**: an empty line between the others, or at the end of the file after the last newline, is counted as a row, of which no cell is written.
- `C157_bug_word` (Verif/IO/PropsNumber.lean): **C157 fails for words**: a field that does not start with a digit, a sign, a point or white space, and is not one of the three markers, is read as zero, without a warning: `Inf`, `null`, `N/A`, `#N/A`, `missing`.
- `C157_bug_infinite` (Verif/IO/PropsNumber.lean): Infinite values are written as words, or as a sign and a word, and read as zero.
- `C157_bug_overflow` (Verif/IO/PropsNumber.lean): **C157 fails for numbers out of range**: they are read as the largest double, and are not infinite.
- `C157_bug_digits` (Verif/IO/PropsNumber.lean): **C157 fails for 16 digits**: the number with 16 significant digits nearest to the double after 1 is 1, and is read as 1.
- `C160_bug_small_step` (Verif/PDE/PropsMaximumTime.lean): C160 (finding): the condition on the step cannot be dropped. A rod of length one in two cells, at temperature zero, is heated to one at its left end and kept at zero at the other: for every time step up to 1/25 the temperature computed in the middle after the first step is negative, lower than all the data. (Cells of length 1/2 satisfy the condition from 1/24 on.)
- `C163_bug_repeated` (Verif/KDTree/PropsHeight.lean): The constructor documents a median split, whose trees have logarithmic height, but equal coordinates are always inserted on the right: over `n` copies of one point, in any dimension, for any `n` and whatever `std::nth_element` does, the tree is a list of height `n`, so that building it takes a number of comparisons quadratic in `n` and walking down to a leaf visits all the points (kd_tree.h:64-74).
- `C163_bug_split` (Verif/KDTree/PropsHeight.lean): The direction of a split is the number of points already inserted modulo the dimension, while the insertion compares with the direction given by the depth of the node: once the two differ the selected point is not the median along the direction compared. Twelve points of the plane with distinct abscissae and distinct ordinates, for which trees of height 4 exist, get a tree of height 5 (kd_tree.h:62-74).
- `C166_bug_block` (Verif/BinMtx/PropsAlias.lean): **C166 (bug).** `a = a.block(0, 0, 2, 2)` for the 3 × 3 identity does not store its upper left block, which is the 2 × 2 identity: the number of columns of `a` is changed before its coefficients are read.
- `C166_bug_repeat` (Verif/BinMtx/PropsAlias.lean): **C166 (bug).** `a = a.repeat(1, 2)` for the 3 × 3 identity gives a matrix whose second copy is not the identity: the coefficient (0, 3) of the repetition is true, the one stored is false.
- `C166_bug_rows` (Verif/BinMtx/PropsAlias.lean): **C166 (bug).** `a = a.bottomRows(1)` for a 3 × 50 matrix is undefined: the storage of `a` is shortened to one pack before the last row, which is in the second and third one, is read.
- `C166_bug_overlap` (Verif/BinMtx/PropsAlias.lean): **C166 (bug).** `a.block(1, 0, 2, 2) = a.block<2, 2>(0, 0)` for a 3 × 2 matrix whose first row is true and whose other rows are false sets the last row, although the second row it is assigned from is false: the rows written are read again.
- `C166_bug_stored` (Verif/BinMtx/PropsAlias.lean): **C166 (bug).** An expression stored in a variable reads out of the storage of a matrix which was assigned a smaller one since: the complement of a 10 × 10 matrix, copied after the matrix has become 1 × 1.
