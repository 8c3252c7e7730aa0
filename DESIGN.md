# Formal model of aslam_splines

Source under study: `/repo` (ethz-asl/aslam_splines), read as text only.
Model and proofs: Lean 4 (4.33.0) with Mathlib, in `/verif/lean`, built by `lake build`.

## Layout

* `Verif/Model/*` – the model: one definition per C++ function, each with a comment citing file and lines.
* `Verif/Spec/*` – small specifications, written without reference to the model (Cox–de Boor recursion,
  derivatives and integrals of Mathlib, abstract maps, …).
* `Verif/Lemmas/*` – helper lemmas relating the two.
* `Verif/Props/*` – the property theorems, named `C01_…`, `C02_…`, with an `example` beside each one showing
  a concrete non-trivial case that meets its hypotheses.
* `properties.jsonl` – the English properties; `MANIFEST.json` – property → theorems; `seeded/LOG.jsonl` –
  mutation experiments. In each line `failed` lists the declarations the build reported errors in; `unproved` lists
  theorems that use one of those, found from the dependency graph (modules after a failed one are not compiled).

## Trusted base

* The Lean kernel and the axioms `propext`, `Classical.choice`, `Quot.sound` (checked with `#print axioms`).
  No own axioms, no `sorry`, no `native_decide`, no `bv_decide`.
* The reading of the C++ text recorded in the model comments. The code is not executed.
* Numbers: `double` is modelled by an arbitrary linearly ordered field `K` (executable on ℚ), or by ℝ where limits,
  derivatives or integrals occur. Rounding is modelled only for times (`Model/Rounding`) and for the evaluation of
  `BSpline` and of the manifold splines (`Model/RoundingEval`, `Model/RoundingManifold`: sums in any order, no fused multiplication and
  addition, `std::pow` correct up to one unit in the last place, quaternion functions within given error bounds); infinities and NaN only for times (`Model/NotANumber`). Integer counts (`int`) are modelled by ℕ/ℤ without overflow,
  except in `Model/MachineIntegers`; integer clock times use truncating division.
* `std::vector` is a list; out of range access is the distinct outcome `ub`; a C++ exception is the distinct
  outcome `throws`.
* Eigen linear algebra (products, blocks, transposes) is modelled by finite sums. Linear solvers (QR, LDLT, sparse
  Cholesky) are a parameter assumed to return *a* solution of the assembled system; what is proved is that
  the assembled system is the right one.
* External packages (`sm_kinematics`, `aslam_backend`, `sparse_block_matrix`, boost, Eigen) are not in the repository;
  what is assumed about them is stated at each use.

## What is modelled

| module | code |
|--------|------|
| `Model/BSpline` | `bsplines/src/BSpline.cpp`: construction, knots and coefficients, basis matrices, lookup, `computeU`, `evalD` |
| `Model/BSplineViews` | Jacobian, Phi, coefficient views, sizes, `BiVector`, removal of segments, constant initialisation |
| `Model/BSplineIntegral` | `evalIntegral`, `Vi`, `Dii`, `Mi`, quadratic integrals |
| `Model/BSplineFit` | `initSpline`, `initSpline2`, `initSpline3`, `addCurveSegment`, `addCurveSegment2`; the solve is a parameter |
| `Model/Knots`, `Model/Integrator` | knot generators, delta-uniform resolver, time policies, `NumericIntegrator` |
| `Model/ManifoldSpline` | `DiffManifoldBSpline` (segment map, iterators, life cycle, append, evaluator, `evalGeneric`, bulk updates) |
| `Model/ManifoldObjects` | several spline objects with maps on a heap: copy, assignment, move; matrix shaped bulk updates |
| `Model/LieGroup`, `Model/QuaternionSpline` | `LieGroup.hpp` exp/log/update; unit quaternion manifold and `UnitQuaternionBSpline` derivative routines |
| `Model/ManifoldJacobian` | Jacobians of `UnitQuaternionBSpline` and `EuclideanBSpline` values, derivatives and angular rates with respect to the control vertices |
| `Model/OptSpline` | `aslam_splines` `OPTBSpline`: design variable list, update/revert, expressions with variable time |
| `Model/OptExpressions` | expression nodes of `OPTBSpline`: announced design variables, Jacobian blocks, chain rule, variable time |
| `Model/NodeCache` | `NodeDistributedCache.hpp` |
| `Model/Fitter` | `BSplineFitter`: constraint rows, regularisation, fixed vertices, `initSpline`, `fitSpline`, `extendAndFitSpline`; dense and sparse assembly |
| `Model/EuclideanSpline` | `EuclideanBSpline`: `evalD`, `evalIntegral` |
| `Model/Pose` | `BSplinePose`: poses, inverses, velocities, accelerations, their Jacobians, initialisation and appending of poses |
| `Model/PoseExpressions` | `aslam_splines`: `BSplineExpressions.cpp`, `BSplineRSExpressions.cpp` and the vector expression node: values, Jacobian blocks, design variables, time windows |
| `Model/SplineVariables` | `BSplineDesignVariable.hpp`, `BSplinePoseDesignVariable.cpp`: design variables mapped onto the coefficient memory, adding and removing segments |
| `Model/MotionError` | `BSplineMotionError.hpp`: construction, value, Hessian, right hand side |
| `Model/MotionErrorFactory` | `BSpline::segmentIntegral`, `BSplineMotionErrorFactory.hpp` (the singular value decomposition is a parameter) |
| `Model/CovarianceError` | `CovarianceReprojectionError.hpp` (camera geometry, frame and the point expression are parameters) |
| `Model/RollingShutterVariables` | `BSplineRSPoseDesignVariable.cpp`, `EuclideanBSplineDesignVariable.cpp` |
| `Model/ManifoldConstant` | `DiffManifoldBSplineImpl.hpp` 240-264 (constant initialisation with knot generators) |
| `Model/SimpleErrors` | `implementation/BSplineExpressions.hpp`, `toExpression` of `implementation/BSplineDesignVariable.hpp`, `implementation/SimpleSplineError.hpp` |
| `Model/Tutorial` | `aslam_backend_bsplines_tutorial/src/exampleBST.cpp` 21-131, `ErrorTermPriorBST.cpp`, `ErrorTermMotionBST.cpp` |
| `Model/EvaluatorBuffers` | `bsplines/include/bsplines/implementation/DiffManifoldBSplineImpl.hpp` 498-505, 731-753, 774-927, 945-966; `DiffManifoldBSpline.hpp` 384-387; the evaluators of `UnitQuaternionBSplineImpl.hpp` and `EuclideanBSplineImpl.hpp` as programs on buffers |
| `Model/SizedArrays` | `bsplines/include/bsplines/DynamicOrTemplateInt.hpp` 16-99; the arrays of `CalculationCache`, `UnitQuaternionBSplineImpl.hpp` 31-75 |
| `Model/PythonInterface` | `bsplines/include/bsplines/python/DiffManifoldBSplineExporter.hpp` 29-97, 135-202; `DiffManifoldBSplineImpl.hpp` 173-176 |
| `Model/UniformFit` | `bsplines/include/bsplines/implementation/BSplineFitterImpl.hpp` 20-42; `DiffManifoldBSplineExporter.hpp` 98-132 |
| `Model/PythonBSpline` | `bsplines_python/src/BSplinePython.cpp` 21-48, 77-78; `bsplines/src/BSpline.cpp` 31-34, 153-175, 325-328, 532-536, 1368-1375, 1713-1716, 1763-1766 |
| `Model/PoseFit` | `bsplines/src/BSplinePose.cpp` 376-381, 423-441 |
| `Model/LieDifferentials` | `LieGroup.hpp` 41-47, 82; `LieGroupImpl.hpp` 50-72, 94-113; `UnitQuaternionManifoldImpl.hpp` 27-31, 76-85; `EuclideanSpaceImpl.hpp` 27-31, 44-72 |
| `Model/LocalCoefficients` | `DiffManifoldBSplineImpl.hpp` 648-652, 668-697 |
| `Model/NotANumber` | `BSpline.cpp` 183-196, 225-264, 551-588, 764-779, 967-1010, 1091-1135, `DiffManifoldBSplineImpl.hpp` 618-637, 733-743, `BSplineFitterImpl.hpp` 69-80 again, for times and knots that may be infinite or NaN, with either form of the assertion macros |
| `Model/MachineIntegers` | `SimpleTypeTimePolicy.hpp` 20-49, `KnotArithmetics.hpp` 41-127, `BSpline.cpp` 289-297 and `DiffManifoldBSplineImpl.hpp` 814-823 again, with `int64_t` times and `int` of 32 bits, overflow undefined |
| `Model/Rounding` | `BSpline.cpp` 237-287, 566-571, 662-675, 776-790, 977-990, 1102-1115, `SimpleTypeTimePolicy.hpp` 20-49 and `KnotArithmetics.hpp` 76-127 again, with every operation on times rounded |
| `Model/RoundingFit` | `BSplineFitterImpl.hpp` 20-42 again, with the knots and knot indices computed in floating point |
| `Model/Exceptions` | `BSpline.cpp` 36-56, 503-528, 551-844, 848-1190, 1718-1755 and `KnotArithmetics.hpp` 158-198 again, with the object a call leaves when it throws |
| `Model/RoundingEval` | `BSpline.cpp` 58-149, 289-318, 331-387 again, with every operation rounded and sums in any order |
| `Model/EvaluatorLife` | one evaluator queried while its spline changes: `DiffManifoldBSplineImpl.hpp` 731-753, `OPTBSpline.hpp` 77-98 |
| `Model/ManifoldRefs` | lifetimes of spline objects, segment maps and the references of segments to manifolds: `OPTBSpline.hpp` 60-98, 148-155, `DiffManifoldBSpline.hpp` 185-188, `DiffManifoldBSplineImpl.hpp` 16-26, 72-74 |
| `Model/VariableCopies` | several spline design variable objects, their implicit copy constructor, assignment and destructor: `BSplineDesignVariable.hpp` 18-59, `implementation/BSplineDesignVariable.hpp`, `BSplinePoseDesignVariable.hpp` 18-74 |
| `Model/LiveExpressions` | expressions kept while their spline changes: `implementation/BSplineDesignVariable.hpp` 46-73, `implementation/BSplineExpressions.hpp`, `BSplinePoseDesignVariable.cpp` 45-177, 211-223, `EuclideanBSplineDesignVariable.cpp` 20-31, `BSplineExpressions.cpp` |
| `Model/LivePoseNodes` | the rotation, position, velocity, acceleration and angular expressions of a pose spline that changes: `BSplineExpressions.cpp` 58-75, 100-117, 143-160, 188-205, 228-244, 266-283, 454-466, `BSplinePoseDesignVariable.cpp` 60-191 |
| `Model/LiveNodes` | expression nodes kept while their spline changes: `OPTBSpline.hpp` 186-249, `OPTBSplineImpl.hpp` 60-180, `OPTUnitQuaternionBSplineImpl.hpp` 10-110, on the evaluators of `Model/EvaluatorBuffers` and the changes of `Model/EvaluatorLife` |
| `Model/Dimensions` | `BSpline.cpp`: the calls of `Model/Exceptions` and the quadratic integrals with vectors and matrices of any size, all size checks, changes of the dimension |
| `Model/FixedSizeMaps` | `BSplineDesignVariable.hpp`, `fixedSizeVvCoefficientVector`: design variables of a size other than the dimension of the spline, as blocks of the memory of the coefficient matrix |
| `Model/PoseDimensions` | `BSplinePose.cpp`: all queries for a base class of any dimension, optional Jacobians, programs of pose calls |
| `Model/PythonLifetimes` | `aslam_splines_python/src/spline_module.cpp` 20-89, `BSplineMotionError.cpp` 16-59, `SimpleSplineError.cpp` 13-23: reference counts, which object holds a reference to which and which only points to it |
| `Model/NumericalIntegral` | `NumericIntegrator.hpp` 139-157 with an integrand that may throw, `DiffManifoldBSplineImpl.hpp` 697-729 (`evalIntegralNumerically`, `evalFunctorIntegralNumerically`) |
| `Model/Scripts` | the memory accesses of queries on evaluators, one by one: the functions of `Model/EvaluatorBuffers` and the calls of `Model/LiveNodes` |
| `Model/Threads` | several threads that call expression nodes: `OPTBSpline.hpp` 186-241, `OPTBSplineImpl.hpp` 60-180; schedules of single accesses to `evalPtr`, evaluators and their vectors |
| `Model/RoundingManifold` | `DiffManifoldBSplineImpl.hpp` 355-505, 731-845, 872-895, 943-966, `EuclideanBSplineImpl.hpp` 21-44, 102-116, `UnitQuaternionManifoldImpl.hpp` 20-59, 88-99 and `LieGroup.hpp` 29-34 again, with every operation rounded; external quaternion functions with error bounds |
| `Model/IntegralProblem` | `addQuadraticIntegralErrorTerms`, `addQuadraticIntegralExpressionErrorTerms` (QuadraticIntegralError.hpp 35-115) as a loop that changes the problem and may throw; the Python functions (QuadraticIntegralError.cpp 17-61, without the names of keyword arguments) |
| `Model/PlotPose` | `plotPoseSpline` (plotPoseSpline.py) without the drawing |

Not modelled: rounding of anything but times and of the evaluation of `BSpline` and of values of manifold splines, output to streams, Python bindings that only forward calls (`BSplinePosePython.cpp`, `DiffManifoldBSplinePython.cpp`, `OPTBSpline.cpp`, `RotationalKinematicsPython.cpp`), Doxygen-only and test code, the numerical inside of Eigen and of the
external packages.

## Assumptions on solvers

* `SolvesRegular`: the dense QR solve returns the solution of every regular square system.
* `SolvesSemidefinite`: the LDLT / sparse Cholesky solve returns a solution of every solvable symmetric positive semidefinite system.

Both are hypotheses of the theorems (never axioms) and are shown to be satisfiable (`choiceSolver`, `cramerSolver`).

## Assumptions on `sm_kinematics` (not in the repository)

`qplus a b` is the quaternion product with vector part `ηa εb + ηb εa − εa × εb`, `quatInv` the conjugate, `quatV` half the embedding of
vectors, `axisAngle2quat` the exponential written out with sine and cosine. Nothing is assumed about `quat2AxisAngle`: it is a parameter.
`quatPlus` and `quatOPlus` are the matrices of the left and right product, `quat2r` is the rotation by conjugation. The Jacobian theorems (C61–C63)
take as hypotheses that `expDiffMat` is the derivative of the exponential (`ExpDiff`) and `logDiffMat` that of the logarithm at the rotations between
neighbouring control vertices (`LogDiffAt`); both are shown satisfiable by the true derivatives.

## Assumptions on `aslam_backend` expressions (C63)

A `JacobianContainer` adds up the blocks given for a design variable; the model keeps the list of calls. A time expression has a value and one row of
partial derivatives per design variable; the node's chain rule matrix is a linear map on the columns of a block. In C63 no segments are added
between the construction of a node and its use; C94 treats programs that add them. `Spec/ExpressionCalculus` says what a list of blocks means: a linear map on directions of the design variables.

`crossMx`, `boxMinus`, `boxTimes` and `toTEuler`-style homogeneous matrices are written out entry by entry in `Model/Pose`. The rotation
parametrisation of `BSplinePose` (`sm::kinematics::RotationalKinematics`) is a parameter: a record of the five virtual functions. Theorems that need
more than that take hypotheses (`Sound`: the matrices are proper rotations, the S matrix is the derivative, the rate function is S times the
parameter rate, the rate Jacobian is its derivative). The Rodrigues parametrisation is proved to meet them all.

## Assumptions on the singular value decomposition and the prior error term (C64)

`SvdSound`: `jacobiSvd` returns left singular vectors and nonnegative singular values of some decomposition. It is a hypothesis and is shown satisfiable
(`exists_svd`). `MarginalizationPriorErrorTerm` is modelled by its constructor arguments only; both sign conventions of its error are treated.

## Assumptions on CPython and Boost.Python (C102)

An object is destroyed as soon as its reference count is zero. `return_internal_reference<>` makes the result hold a reference to `self`; `copy_const_reference` copies; pointer and reference arguments are addresses of C++ objects without a reference.

## Where the code does not do what its property says

Each item is proved in Lean with a concrete witness; the property then has a `_partial` theorem with the exact conditions under which it
holds.

* C01/C06: the lookup treats times up to `1e-10` past the end as the end, and a last segment narrower than that is misplaced.
* C01: a zero-width last segment evaluates to zero.
* C08, C54: remainders below `1e-16` are dropped by the integral queries.
* C12: the knot check loops over the length of the *old* knot vector: a fresh spline accepts decreasing knots, a longer old vector makes
  the check read out of range.
* C13: `removeCurveSegment` does not shift the cached basis matrices; wrong for non-uniform knots.
* C14: from order 5 on `addCurveSegment` does not preserve the end of the existing curve as documented.
* C15: re-initialising a spline that holds more knots than needed reads out of range (same reason as C12).
* C20: `BiVector` has one entry per segment instead of one per coefficient.
* C22: appended values are not checked to be on the manifold; `addControlVertex` and `setControlVertices` do not check the state; a
  duplicate knot on append is dropped silently.
* C23: for order 1 appending changes the value at the old maximum time.
* C29, C30: for order 1 the second and third derivative and the angular acceleration of a quaternion spline read outside empty arrays.
* C31: negative offsets are clipped or walk off the front of the map, positive ones can overrun, one-dimensional matrices are read out
  of range.
* C32, C34: integer clocks: repeated knots / wrong index when the duration is not a multiple of the segment count.
* C35: extending with all predefined knots before the time reads an empty deque; predefined knots can be dropped.
* C36: an integer step is truncated.
* C37: a slot registered after a release finds the entries of the released slot, valid, or of another type.
* C38: with fixed vertices and a regularisation the regularisation terms are added to the equations of the wrong vertices (`C38_shifted` says what is minimised instead).
* C39: when the first new time lies less than an order after the start of the spline, fewer old samples are retained than were counted; the new
  measurements are stored behind a gap of zero times and unset points, and the fit throws or reads unset memory.
* C42: removing a segment from a spline without coefficients left is undefined behaviour.
* C43: two ways of initialising leave the list of design variables empty; after an assignment it points into the source's map.
* C44: the cached evaluator is kept when the time moves from inside a segment to its left knot; the old value is returned.
* C45: the node of a window throws at exactly the maximum time of the spline.
* C46: an error term order of `2^31` or more acts like order 0; when the solver orders the blocks differently from the spline, blocks
  land below the diagonal although only the upper triangle is meant to be filled.
* C47: reversed bounds give NaN.
* C48: reverting before any update installs an uninitialised point.
* C50: the body frame acceleration node drops the change of the body frame from its Jacobian.
* C61: for order one the Jacobian of a derivative of a quaternion spline reads outside empty arrays (the derivative itself is zero).
* C63: angular velocity and acceleration nodes at a variable time announce design variables they give no block for (the value nodes add zero blocks).
* C58: `angularVelocityAndJacobian` returns the negative of `angularVelocity`.
* C59: `angularAccelerationBodyFrame` drops the change of the S matrix.
* C51: `addCurveSegment2` does not interpolate for a nonzero weight.
* C64: for a derivative order not below the spline order the terms of the factory add up to zero for all coefficients, while `BSplineMotionError`, made
  with the same arguments, reduces the order and penalises the highest derivative that is not zero everywhere (`C64_high_order`, `C64_order_violated`).
* C64 (outside the claim): `segmentIntegral` accepts symmetric weights that are not positive semidefinite and then returns the root of another matrix;
  if the external error term computes `R Δ − d`, the factory's terms pull the coefficients to twice their value.
* C65: `covarianceMatrix` multiplies the Jacobian of the projection with the motion of the point in the *world* frame (`boxMinus(T p) JT ċ`) instead of the
  camera frame; a factor `T⁻¹` is missing (`C65_violated`). Without a spline the covariance of the keypoint is ignored (`C65_no_spline`; the assignment is
  commented out in the constructor). If the image motion per row is −1 the weight is undefined (`C65_singular`).
* C66: the rolling shutter expression announces the coefficients of the segment the observation is in when the error term is made. An update of the line delay
  can move the observation into another segment; the Jacobians then refer to a variable that was not announced (`C66_violated`). The time offset expression
  guards against this with a window, this one does not.
* C69: `example 0` reads and writes the first element of empty vectors (exampleBST.cpp 59, 60; `C69_violated`). The noisy wall position of line 97 is
  printed but the wall starts at the true value (101).
* C72: `DynOrStaticSizedArray<T, Dynamic>` has a destructor that deletes its block but the implicit copy constructor: a copy shares the elements, and
  destroying both is undefined (`C72_copy_violated`). A wrong static size throws a pointer to an exception, and the check for a negative dynamic size comes
  after `new T[size]` and is never reached (`C72_exceptions`).
* C73: the Python functions `eval`, `evalD` and `evalJacobianD` read the time range before anything checks that the spline is initialised
  (`C73_uninitialised_violated`). `setControlVertices(coefficients())` transposes the coefficients if there are as many as dimensions (`C73_set_violated`).
  For quaternion splines the interface uses the dimension 3 of the tangent space where the size 4 of the points is needed: `coefficients()` has rows of the
  wrong size, and `fitSpline` and `extendAndFitSpline` reject quaternions and accept vectors of three components, which they write into quaternions
  (`C73_quaternion_coefficients_violated`, `C73_quaternion_fit_violated`).
* C74: `initUniformSplineWithKnotDelta` does not check the distance; with zero or a small negative one it never ends (`C74_distance_violated`).
  With two equal times it throws only after the knots have been added; they stay, the resolver of a later `initUniformSpline` then numbers the knots
  wrongly, and the points are missed (`C74_retry_violated`). `initUniformSpline` with an interval reads `times.front()` of an empty vector
  (`C74_empty_violated`). The Python functions do not check the number of rows (`C74_rows_violated`).
* C75: `BSplinePython.cpp` 78 binds `segmentCoefficientVector` to `localCoefficientVector`: the segment number is taken as a time, so that
  the call throws or returns the coefficients of another segment than `segmentCoefficientVectorIndices` names (`C75_segment_violated`).
* C76: with order two `initSpline3`, `initSplineSparse` and `initSplineSparseKnots` penalise the first derivative, so that data on a straight
  line may be missed, e.g. two points with different values and weight one (`C76_order_two_violated`). (A choice of the code, since
  the second derivative of such curves is zero; `initSpline2` has no effective penalty for order two.)
* C78: `setLocalCoefficientVector` and `getLocalCoefficientVector` do not check that the spline is initialised (`C78_before_init_violated`) nor that the
  points are on the manifold (`C78_manifold_violated`); the parameter `pointSize` is not compared with the size of the points
  (`C78_point_size_violated`).
* C80: if the assertion macros of `sm_common` (not part of the repository) throw when the opposite comparison is true, NaN passes all of them:
  `computeTIndex` dereferences the end of the knots (`C80_violated`), `getSegmentIterator` returns the last of all knots and the evaluator dereferences
  the end of the map (`C80_manifold_violated`), initialisations do the same (`C80_init_violated`, also for infinite times, `C80_fit_violated`), and NaN
  hides a wrong order of times (`C80_order_violated`, `C80_bounds_violated`).
* C81: for nanosecond clocks `duration * position` overflows for one hour at one kilohertz (`C81_violated`); the debug assertion in
  `getSegmentNumber` bounds the lookup exactly (`C81_assertion`) but not the knots behind the valid interval (`C81_assertion_violated`);
  the number of knots overflows before the arguments are checked (`C81_count_violated`); `dmul` overflows for order 14 (`C81_dmul_violated`).
* C84: with data from time 0 to time 10^6 and 29 segments, in double precision, the last knot of the valid interval is computed as 10^6 - 2^-33, which
  differs from the last data time by more than the tolerance of 1e-10: the fit throws for its own data (`C84_data_violated`). Very short segments have width
  zero (`C84_strict_violated`).
* C85: `getSegmentNumber` does not invert `linearlyInterpolate` in double precision although the assertion in line 41 of `SimpleTypeTimePolicy.hpp`, which
  is meant to ensure it, holds: with three segments between 1 and 2 the index of the first inner knot is one too low; with three segments between 0 and
  0.7 that of the end is, and the assertion fails (`C85_resolver_violated`). A fit with data at such times puts their weight on the wrong vertex or leaves
  the last vertex out and misses the points without any error (`C85_fit_violated`).
* C86: in double precision the knots every 0.3 from 0 to 0.9 end at 0.9 - 2^-53, those from 10 to 11 start at 10 + 2^-49 (`C86_interval_violated`), so that
  `initUniformSplineWithKnotDelta` throws for its own last or first data time, and the spline stays initialised (`C86_fit_violated`). With a distance of 1e-7
  at time 1.5e9 the loop over the knots never ends (`C86_ends_violated`).
* C87: `initSplineSparseKnots` sets knots and zero coefficients before it finds that a data time is outside of the given knots: it throws and the spline is zero
  (`C87_given_knots`, `C87_violated`). `DeltaFreeKnotGenerator::extendBeyondTime` removes predefined knots before it throws (`C87_generator_violated`).
* C88: `initWithKnotsAndControlVertices`, `addKnotsAndControlVertices`, `initWithKnots` and `initConstantSpline` leave knots and vertices behind when they
  throw, and insertion never overwrites: a second call with corrected vertices returns, but the spline has vertices of the failed call (`C88_violated`,
  `C88_knots_violated`, `C88_constant_violated`). `extendAndFitSpline` leaves the spline extended by default vertices (`C88_extend_violated`).
* C90: an evaluator made for the last time of a spline keeps the derivatives from the left after segments are appended (`C90_end_violated`).
* C91: design variables of a copied or assigned optimisable spline refer to the manifold of the spline they were copied from, and dangle when that is
  destroyed (`C91_copy_violated`, `C91_assign_violated`).
* C92: the design variables of a copied or assigned spline design variable object are those of the source: updates go to the spline of the source
  (`C92_copy_violated`, `C92_assign_violated`), or to freed memory (`C92_dangling`).
* C93: an expression for the end of a spline has wrong Jacobians after a segment has been added (`C93_end_violated`); an expression whose time has been removed
  announces a destroyed design variable (`C93_faithful_partial`); the expression for a moving time announces wrong design variables after a
  removal (`C93_window_violated`).
* C94: a velocity node made for the end of a spline gives the velocity before it, and its design variables, after a segment has been appended
  (`C94_end_violated`); a node at a variable time gives at a knot value and blocks of the time it was asked at before (`C94_knot_violated`).
* C95: points without components pass the checks of `initSpline2`, `initSpline3` and `initSplineSparse`, which then read the first entry of an empty
  index vector; the sparse quadratic integrals of a spline without rows (for instance fresh from the constructor) loop for ever (`C95_violated`).
* C96: the design variable classes accept splines of any dimension: with a larger one the remaining components cannot be optimised, with a smaller one updates
  change the next coefficient and the last design variable is outside of the matrix (`C96_violated`).
* C97: a pose spline initialised through an inherited function with points of another dimension answers queries: below three components with undefined
  behaviour, with three to five with overlapping positions and rotation parameters, and the Jacobians are undefined behaviour (`C97_violated`).
  `initPoseSplineSparseKnots` does the same: it takes points of any number of rows (`C97_knots_violated`).
* C99, order two: with order two `initSpline3` and its variants penalise the first derivative, `BSplineFitter` the second, which is zero for such splines.  For data on any line that is not constant the manifold spline passes through the data, the plain spline does not (`C99_order_two_violated`).
* C99, ends without data: `BSplineFitter` only computes the vertices between the first and the last time.  The others keep the default point zero, also with a regularisation that would determine them.  For data that are all the same point and do not begin in the first segment the plain spline is this point everywhere, the manifold spline is not (`C99_ends_violated`).
* C102: in Python, only `designVariable` makes its result hold a reference to the design variable object. Expressions, motion errors, simple errors and the terms of `addMotionErrorTerms` point into the object without holding it: when its last name is dropped they read freed memory.
* C105: less than `1e-10` after the valid range `BSpline` returns a value and `EuclideanBSpline` throws, for all splines (`C105_past_end_violated`).  With a
  last interval shorter than `1e-10` they return different values inside the range (`C105_narrow_violated`).  Of two equal knots `EuclideanBSpline` drops the
  second with its vertex, without notice, and follows another curve (`C105_equal_knots_violated`).
* C106: the evaluator of a factory has one vector for all derivatives that are not prepared, and the nodes of the factory share it; two threads that use
  it at once get wrong values (`C106_buffer_violated`).  A factory for a variable time deletes its evaluator when the time changes; a thread that uses
  it at that moment reads deleted memory (`C106_timed_violated`), and two threads can delete the same evaluator (`C106_deleted_violated`).
* C111: a call that throws at a later integration point leaves the error terms of the earlier points in the problem; for -1, 0 or 1 points the default rule adds one error term with an infinite weight instead of throwing.
* C112: `plotPoseSpline` with a negative distance draws one point without an error.
* C113: a fit with fixed vertices and a regularisation can increase the cost (same cause as C38).
* C114: the last control vertex of the tutorial's spline is handed to the optimiser, but the times of the terms are 0, …, K - 1 (exampleBST.cpp 113-129) while the
  spline ends at K (line 87), so that no term depends on it (`C114_violated`, `C114_column`). With one step more vertices are undetermined (`C114_further_violated`).
* C116: from order five on the penalty at the knots of `initSpline2` does not determine the curve between the knots, for order two it has no effect: with few data the result depends on the
  solver, although the weight is positive (`C116_high_order_violated`, `C116_order_two_violated`).

## Plan per property

| id | modelled code | how proved |
|----|---------------|-----------|
| C01 | BSpline: basis matrices, knot search, `computeU`, `evalD` | induction over the order (Qin recursion = Cox–de Boor), plus knot search invariant |
| C02 | local basis vector | induction over the order on the Cox–de Boor recursion |
| C03 | `evalD`, index functions | direct from the block structure of the model; index bounds from the lookup invariant |
| C04 | `evalD` with derivative order | derivative of the polynomial piece (`HasDerivAt`, iterated) |
| C05 | `evalD` at a knot from both pieces | derivative formula of B-splines, induction over the order |
| C06 | `computeTIndex` | upper_bound characterised on sorted lists |
| C07 | `evalDAndJacobian`, `Phi` | finite sum identities, Fréchet derivative of a linear map |
| C08 | `evalIntegral` | interval integrals of polynomial pieces, induction over segments |
| C09 | `Vi`, `Dii`, `Mi`, quadratic integrals | monomial integrals, matrix form of differentiation |
| C10 | coefficient setters/getters | round trip on lists / index arithmetic |
| C11 | counts, time intervals | `omega`, tiling by knots |
| C12 | `setKnotsAndCoefficients` | counterexample (the check runs over the old knots) and `_partial` |
| C13 | `removeCurveSegment` | counterexample (stale basis matrices) and `_partial` for uniform knots |
| C14 | `addCurveSegment` | solver as parameter; counterexample to preservation and `_partial` |
| C15 | `initSpline` | solver as parameter |
| C16 | `initConstantSpline` | partition of unity |
| C17, C18 | `evalD` | finite sums; homogeneity of the recursion |
| C19, C38 | normal equations | completion of the square |
| C20 | `BiVector` | counterexample (vector is truncated) and `_partial` |
| C21–C25 | DiffManifoldBSpline container | sorted association list, invariants over all operations |
| C26 | `evalGeneric` on ℝⁿ | Abel summation |
| C27, C28 | `evalGeneric` on groups | induction over the product |
| C29, C30 | quaternion derivative routines | `HasDerivAt` of quaternion products |
| C31 | `manipulateControlVertices` | iterator positions as integers; UB outcome |
| C32–C35 | knot generators, time policies | induction / arithmetic; counterexamples for integer clocks and the empty queue |
| C36 | NumericIntegrator | sums of weights, induction |
| C37 | NodeDistributedCache | state machine; counterexample for slot reuse, `_partial` |
| C39 | `extendAndFitSpline` data assembly | counterexample and `_partial` |
| C40, C41, C50 | BSplinePose | block matrices; counterexample for C50 |
| C42, C43 | design variable bookkeeping | state machines with pointers as (buffer, index) |
| C44 | evaluator cache of time expressions | state machine; counterexample and `_partial` |
| C45 | time window node | index arithmetic over segments |
| C46, C47 | error terms | quadratic forms; sums |
| C48 | update/revert | state machine over an abstract group |
| C56–C60 | BSplinePose Jacobians, expression nodes | `HasDerivAt` along any line of coefficients; counterexamples for C58, C59 |
| C61, C62 | quaternion spline Jacobians | Leibniz rule over the factors; `HasDerivAt` along curves of control vertices |
| C63 | expression nodes of optimisable splines | `HasDerivAt` along simultaneous moves of vertices and time; spans of segments as slices |
| C49 | chain rule | `HasDerivAt` composition |
| C64 | `segmentIntegral`, `addMotionErrorTerms` | uniqueness of positive semidefinite square roots, sum over the segments of C09 |
| C65 | `covarianceMatrix`, `evaluateErrorImplementation` | product rule for `T T⁻¹ w = w`, chain rule through the camera; algebra of 2 × 2 inverses |
| C66 | `BSplineRSPoseDesignVariable`, `EuclideanBSplineDesignVariable` | simulation relation with a table, induction over operations |
| C67 | `initConstantSpline`, `initConstantUniformSpline`, `initConstantUniformSplineWithKnotDelta` | induction over the knots, composition of C32, C33, C55, C27 |
| C68 | `BSplineVectorExpressionNode`, `SimpleSplineError` | affine dependence of the curve on its coefficients |
| C69 | tutorial program, prior and motion terms | composition of C67, C43, C63; quotient rule; linear precision |
| C70 | manifold splines at knots | joined pieces of the cumulative basis functions; gluing lemma for segment curves |
| C71 | evaluator with prepared and shared vectors, in-place sums, all queries | refinement of the value models; invariant over request sequences |
| C72 | `DynamicOrTemplateInt`, `operator *`, `DynOrStaticSizedArray`, `CalculationCache` | refinement of a heap with pointers to values, invariant of unique ownership; loop invariant for the cache |
| C73 | `BSplineExporter` | refinement to the spline's own functions using C71, C55, C31; case analysis over the shapes |
| C74 | `initUniformSpline*` | knots by C32, C33, C34; cost by C38; a line has cost zero, zero cost means zero residuals and no second derivative |
| C75 | Python functions of B-splines | local vectors by C20; all other weights vanish; summation by parts for the cumulative form |
| C76 | polynomials, fits | Marsden's identity by induction on the degree, monomials by comparing coefficients; zero cost of the reproducing coefficients and optimality (C19, C53) give zero residuals and vanishing derivatives; smoothness at knots joins the pieces |
| C77 | `dexp`, `dlog`, `minimalDifferenceAndJacobian` | chain rule for an abstract group with derivatives; instances Euclidean space and unit quaternions |
| C78 | local coefficient vectors | induction over the loops walking back; writing is the bulk update of C31 |
| C79 | uniqueness and equivariance of fits | stationarity of the cost in every direction; the difference of two optima has no cost for zero data, so it is a line through zero at two times; independence of the basis functions |
| C80 | infinite times and NaN | IEEE comparisons; refinement of the lookup for numbers; case analysis for the others |
| C81 | machine integers | refinement of the unbounded arithmetic with exact limits; invariant of the delta generator; induction for `dmul` |
| C82 | control slopes | derivative formula of the pieces and summation by parts; mean value inequality; separation of a point from a convex set |
| C83 | rotation rates | the derivative of a cumulative weight is a basis function of one degree less; product rule and norms of unit factors; mean value inequality and subdivision for the angle; reproduction of straight lines by the weights |
| C84 | rounded times | axioms for a rounding, IEEE doubles as an instance; monotonicity gives the order of knots and the lookup; relative errors give the end of the interval |
| C85 | rounded uniform knots | error bounds for offset and place; monotonicity for the generator; one unit of error for the floor; clear times reduce the fit to `C38_init_optimal` |
| C86 | rounded knot distances | iterates of the rounded step, monotone; relative errors and induction over the steps; Archimedean argument for the end of the loop |
| C87 | objects after exceptions | refinement of the functional models; after `setKnotsAndCoefficients` no throwing place is reachable (invariant: covered times); induction over calls |
| C88 | manifold splines after exceptions | exact effect of the insertion loops; `init` and `append` of consistent splines; induction over calls |
| C89 | rounded evaluation | intervals of relative error: a value computed in n steps is within (1+2u)^n-1 of the exact one; induction over the order for the matrices, over the summation tree for sums |
| C90 | evaluator and changes of its spline | invariant over events: knots are only appended, so the interval and the pieces of the basis at the time stay; refinement of C71 |
| C91 | pointers and references into splines | invariant over program states with serial numbers of objects; induction over later operations |
| C92 | copies of spline design variable objects | invariants over worlds of objects (own pointers, sizes, bounds of pointers, unshared memory); induction over histories |
| C93 | expressions that outlive changes of their spline | invariant over histories (collected design variables kept, or one destroyed for good); refinement of the index based theorems C45, C56 |
| C94 | expression nodes of optimisable splines that outlive changes | refinement of the nodes of C63 by nodes with kept evaluators and buffers, over all programs (invariant: the kept evaluator was made for an earlier state of the spline) |
| C95 | size checks and changes of the dimension | refinement of the calls with arguments of any size by those of the models with fixed dimension, over all programs |
| C96 | design variables of another size than the coefficients | equivalence with C42 for equal sizes, characterisation of freedom, invariants over programs |
| C97 | pose splines of other dimensions | equivalence with the model of dimension six, invariant over programs, case analysis of all queries |
| C98 | null space of the motion error | pieces of the curve are polynomials; integrals of positive definite forms; smoothness at the knots; counting roots |
| C99 | agreement of the two fitters | both results minimise the same cost over the same splines (C19, C38, C74); the minimum is unique (C79) |
| C101 | variation diminishing | knot insertion (from Marsden's identity and the independence of the basis) keeps the curve and takes new coefficients between neighbours; at knots of full multiplicity the curve passes its coefficients |
| C100 | scaling, shifting and reversing time | the recursion of the basis pieces commutes with affine maps of time; reflected it swaps its two terms |
| C102 | Python objects stay usable | reference counts equal the number of names and keepers (invariant by induction over programs, also through the cascade of a destruction); reachability from this |
| C103 | quaternion spline near its control rotations | induction over the factors of a segment: replacing one factor by a whole or no step turns by at most the rest of the step; triangle inequality of angles, exchange of sums with the cumulative weights |
| C104 | accuracy of numerical integration | error of one panel as a function of its half width, bounded by repeated comparison of derivatives; sum over the panels; uniform continuity for the limit; right derivatives bound the Lipschitz constants of splines |
| C105 | agreement of `BSpline` and `EuclideanBSpline` | relation between the two states, kept by every call, with equal answers; induction over sessions |
| C106 | several threads on expression nodes | threads whose footprints are disjoint do not notice each other, for all schedules; footprints of calls by induction over their accesses; refinement of the sequential model |
| C107 | manifold splines with rounding | the error analysis of C89 for the local matrices; the exponential is Lipschitz, so the errors of the factors of a product of rotations add up; projection resets the error of the norm |
| C108 | fits with weight zero | Schoenberg-Whitney: zeros of a spline are counted by induction on the order with Rolle's theorem across knots; conversely, a nonzero determinant has a nonzero product of entries, hence a choice of a time for each coefficient, which sorting makes increasing |
| C109 | which coefficients have influence | basis functions are positive inside of their support; the polynomials of a segment are independent; for groups a case distinction on the neighbours of the vertex, with values cancelled from both sides |
| C110 | fits with different weights and data | a minimum is characterised by a vanishing slope in all directions (C79); choosing the direction: the curve itself, the difference of two curves, a polynomial; comparison of two minima |
| C111 | the loop over the integration points on a problem | cases of the loop: all steps succeed, or the first that fails; convexity of the set of valid times |
| C112 | times and points of a plot | induction over the times; bounds of the ceiling function; C06, C40 |
| C113 | histories with fits | invariant by induction over calls and fits; comparison of minima |
| C114 | tutorial program | closed form of the cubic weights at a knot; induction over the vertices |
| C115 | motion error term | quadratic form of the term; orthogonality; solvability of semidefinite systems |
| C116 | penalty at the knots (initSpline2) | normal equations of rows; line from zero second derivatives; kernel by dimension; shifted solver |
| C117 | determined fits of manifold splines | expansion of the cost along changes; Schoenberg-Whitney with leading zero coefficients by adding knots in front |
| C118 | regularised fits and interpolation | energy identity of C110, null space of the penalty, conditions of minimality of two fits |
| C119 | growing and falling weight | the fit of one point off the line represents the distance from the chord; moments of the residuals (C110); linear forms of interlaced data |
| C120 | continuity of the fits in the data | energy of the difference of two fits, distance from the chord (C119), derivatives as combinations of values; the same for the penalty at the knots and the fitter of the manifold splines |
