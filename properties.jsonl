{"id": "C01", "title": "Evaluation is the B-spline curve", "statement": "Evaluating a spline at a time of its valid interval returns the B-spline combination of its coefficients: the sum over all coefficients of the Cox-de Boor basis function of that coefficient times the coefficient (at the right end of the interval: its limit from the left).", "quantifier": "for every order >= 2, every nondecreasing knot sequence of admissible length, every coefficient matrix and every time in [t_min, t_max) (and t_max when the last segment has positive width); times closer than 1e-10 (the hard coded end tolerance) to t_max must lie in the last segment", "why_tests_cant": "Tests compare a few orders on uniform knots with a few sample times; the identity must hold for all orders, all non-uniform or repeated knots and all times.", "anchors": ["bsplines/src/BSpline.cpp: M, d_0, d_1, computeUAndTIndex, computeU, evalD, initializeBasisMatrices"]}
{"id": "C02", "title": "Convex combination", "statement": "At any valid time the weights given to the locally active coefficients are non-negative and add up to one, so every component of the curve value lies between the minimum and maximum of that component over the active coefficients.", "quantifier": "for every spline, every valid time", "why_tests_cant": "Non-negativity and the sum are universally quantified over knots, orders and real times; sampling can miss sign changes of the polynomial pieces.", "anchors": ["bsplines/src/BSpline.cpp: getLocalBiVector, evalD", "bsplines/include/bsplines/BSpline.hpp: getBiVector"]}
{"id": "C03", "title": "Local support", "statement": "The value and every derivative of the curve at a time depend only on the order-many consecutive coefficients whose indices are reported for that time; all reported indices exist; changing any other coefficient changes nothing.", "quantifier": "for every spline, time, derivative order and every modification of other coefficients", "why_tests_cant": "Requires quantifying over all pairs of coefficient matrices that agree on the reported indices.", "anchors": ["bsplines/src/BSpline.cpp: localVvCoefficientVectorIndices, localCoefficientVectorIndices, localCoefficientMatrix, evalD"]}
{"id": "C04", "title": "Derivatives are derivatives", "statement": "The d-th derivative query returns the exact d-th time derivative of the value query on every segment of positive width, and the zero vector for d >= order; a negative order is rejected with an exception.", "quantifier": "for every spline, every derivative order d, every time in the interior of a segment (one sided at its left end)", "why_tests_cant": "Finite differences only approximate; the claim is exact and holds for every order of differentiation.", "anchors": ["bsplines/src/BSpline.cpp: evalD, computeU, dmul"]}
{"id": "C05", "title": "Smoothness across knots", "statement": "A spline of order k is k-2 times continuously differentiable at every simple interior knot: derivative queries of order up to k-2 have the same value when approached from the left piece and when evaluated from the right piece. In particular the curve never jumps at a simple knot.", "quantifier": "for every order, every knot sequence, every simple interior knot, every derivative order up to order minus 2", "why_tests_cant": "Continuity is a statement about limits for all coefficients and all non-uniform knots.", "anchors": ["bsplines/src/BSpline.cpp: M, evalD"]}
{"id": "C06", "title": "Segment lookup and interval errors", "statement": "A time inside the valid interval is always attributed to a segment that contains it; a time before the interval raises an exception; a time after the interval raises an exception (the code lets times within 1e-10 past the end through, see note); and no lookup reads outside the knot array.", "quantifier": "for every nondecreasing knot sequence with enough knots and every time", "why_tests_cant": "Boundary behaviour on repeated knots and at the exact ends for all knot sequences.", "anchors": ["bsplines/src/BSpline.cpp: computeTIndex, computeUAndTIndex, t_min, t_max, segmentIndex"]}
{"id": "C07", "title": "Jacobian and basis matrix consistency", "statement": "The Jacobian returned along with a derivative query, multiplied by the vector of locally active coefficients, gives the queried value; it is the exact derivative with respect to those coefficients; its columns correspond position by position to the reported coefficient indices; and the explicitly built basis matrix gives the same value.", "quantifier": "for every spline, time, derivative order and every perturbation of the coefficients", "why_tests_cant": "Numerical differentiation in tests covers random samples for uniform knots with a tolerance; the identity is exact for all.", "anchors": ["bsplines/src/BSpline.cpp: evalDAndJacobian, Phi, localBasisMatrix, localCoefficientVector, localCoefficientVectorIndices"]}
{"id": "C08", "title": "Integral query", "statement": "The integral query between two times of the valid interval equals the integral of the curve between them (exactly when each bound is a knot or more than 1e-16 past one; otherwise up to 1e-16 times the largest coefficient per bound, which the code drops on purpose); it is zero for equal bounds, antisymmetric in its bounds and additive over adjacent intervals.", "quantifier": "for every spline whose last segment is at least as long as the 1e-10 end tolerance of the lookup (the algebraic laws: for every spline) and every two (three) valid times", "why_tests_cant": "All placements of the two bounds relative to all knots cannot be enumerated.", "anchors": ["bsplines/src/BSpline.cpp: evalIntegral", "bsplines/include/bsplines/BSpline.hpp: evalI"]}
{"id": "C09", "title": "Quadratic motion cost", "statement": "The matrix built for a symmetric weight W and derivative order d, applied as a quadratic form to the stacked coefficients, equals the integral over the valid interval of the W-weighted squared d-th derivative of the curve; the matrix is symmetric, and positive semidefinite when W is.", "quantifier": "for every spline whose last segment is at least as long as the 1e-10 end tolerance of the lookup (symmetry and semidefiniteness: for every spline), every symmetric weight matrix, every derivative order and every coefficient vector", "why_tests_cant": "Equality of a closed-form matrix with an integral for all inputs.", "anchors": ["bsplines/src/BSpline.cpp: Vi, Di, Dii, Mi, Bij, segmentQuadraticIntegral, segmentQuadraticIntegralDiag, curveQuadraticIntegral, curveQuadraticIntegralDiag"]}
{"id": "C10", "title": "Coefficient views agree", "statement": "Writing the stacked coefficient vector and reading it back returns what was written, the matrix and the vector view always describe the same coefficients, writing a local coefficient vector changes exactly the locally active coefficients, and wrongly sized input is rejected without changing the spline.", "quantifier": "for every spline, every vector, every time and every sequence of such writes", "why_tests_cant": "Quantifies over all sequences of writes and all sizes.", "anchors": ["bsplines/src/BSpline.cpp: setCoefficientVector, coefficientVector, setCoefficientMatrix, setLocalCoefficientVector, localCoefficientVector, vvCoefficientVector"]}
{"id": "C11", "title": "Size bookkeeping", "statement": "The numbers of knots, coefficients and valid segments given by the API are mutually consistent: the knots required for s segments give s segments, coefficients required match the coefficient count of every accepted spline, and valid segment intervals tile the valid interval from its minimum to its maximum without gap or overlap.", "quantifier": "for every order >= 2, every segment count and every accepted spline", "why_tests_cant": "Arithmetic identity over all naturals plus an invariant over all operations.", "anchors": ["bsplines/src/BSpline.cpp: numValidTimeSegments, numKnotsRequired, numCoefficientsRequired, timeInterval, t_min, t_max", "bsplines/include/bsplines/KnotArithmetics.hpp: getNumValidTimeSegments, getNumKnotsRequired, getNumControlVerticesRequired"]}
{"id": "C12", "title": "Invalid knots are rejected", "statement": "Setting knots that are not nondecreasing, too few, or of a length that does not match the coefficient count is rejected with an exception and leaves the spline unchanged; valid input is always accepted.", "quantifier": "for every previous state of the spline and every new knot sequence and coefficient matrix", "why_tests_cant": "Depends on the previous history of the object (the check is done against stored data), which tests start from scratch.", "anchors": ["bsplines/src/BSpline.cpp: setKnotsAndCoefficients, verifyKnotSequence"]}
{"id": "C13", "title": "Removing a segment keeps the rest of the curve", "statement": "After removing the first segment the curve is unchanged on the remaining valid interval, all derivatives included, and the valid interval starts one segment later.", "quantifier": "for every spline, every time in the remaining interval and every derivative order, after any number of removals", "why_tests_cant": "Depends on knot spacing; a test on uniform knots cannot see a stale cached basis.", "anchors": ["bsplines/src/BSpline.cpp: removeCurveSegment, evalD"]}
{"id": "C14", "title": "Appending a segment", "statement": "After appending a segment with end time t and end value p, the valid interval ends at t, the curve has value p at t, it still has its former end value at its former end time, and the existing curve before that is preserved when the new end time equals the first knot past the end.", "quantifier": "for every spline and every new end time past the end and every value", "why_tests_cant": "Quantifies over all knot tails, uniform or not.", "anchors": ["bsplines/src/BSpline.cpp: addCurveSegment", "bsplines/include/bsplines/BSpline.hpp: doc of addCurveSegment"]}
{"id": "C15", "title": "Two point initialisation interpolates", "statement": "Initialising from two times and two values gives a spline of one segment on exactly that interval whose curve takes the given values at both ends (and, for order greater than 2, has the mean velocity at both ends as requested), whenever the linear solve succeeds.", "quantifier": "for every order from 2 up, every pair of increasing times and every two values", "why_tests_cant": "Universally quantified over orders and values; relies on the assembled equations, not on samples.", "anchors": ["bsplines/src/BSpline.cpp: initSpline"]}
{"id": "C16", "title": "Constant initialisation", "statement": "A spline initialised to a constant has that value at every valid time, zero derivatives of every positive order, and the requested interval and segment count, with uniformly spaced knots.", "quantifier": "for every order, interval with t_min < t_max, segment count >= 1 and every constant", "why_tests_cant": "All orders, counts and times.", "anchors": ["bsplines/src/BSpline.cpp: initConstantSpline", "bsplines/include/bsplines/implementation/DiffManifoldBSplineImpl.hpp: initConstantUniformSpline"]}
{"id": "C17", "title": "Affine invariance", "statement": "Applying an affine map to all coefficients applies the same map to the curve (and its linear part to all derivatives).", "quantifier": "for every affine map, spline, time and derivative order", "why_tests_cant": "Quantifies over all affine maps.", "anchors": ["bsplines/src/BSpline.cpp: evalD"]}
{"id": "C18", "title": "Time scaling and shift", "statement": "Shifting and positively scaling all knots yields the same curve in the shifted and scaled time; d-th derivatives scale with the d-th power of the inverse factor.", "quantifier": "for every spline, every shift, every positive factor, every time, every derivative order", "why_tests_cant": "Quantifies over all reparametrisations.", "anchors": ["bsplines/src/BSpline.cpp: M, computeU, evalD, computeTIndex"]}
{"id": "C19", "title": "Regularised fit is optimal", "statement": "The coefficients computed by the regularised least squares initialisation minimise sum of squared residuals plus lambda times the integral of the squared second (or first, order 2) derivative among all coefficient choices, whenever the linear solve succeeds.", "quantifier": "for every set of observation times and values, segment count, non-negative lambda and every competing coefficient vector", "why_tests_cant": "Optimality quantifies over all competitors.", "anchors": ["bsplines/src/BSpline.cpp: initSpline3, initSplineSparse, curveQuadraticIntegralDiag"]}
{"id": "C20", "title": "Basis function vectors", "statement": "The vector of basis function values at a time weights the full coefficient list so that the weighted sum is the curve value; the cumulative variant has entry i equal to the sum of the basis values from i on, is 1 before the local support, 0 after it, and never increases.", "quantifier": "for every spline, time and coefficient index", "why_tests_cant": "All indices for all splines; boundary segments included.", "anchors": ["bsplines/include/bsplines/BSpline.hpp: getBiVector, getCumulativeBiVector, BiVector", "bsplines/src/BSpline.cpp: getLocalBiVector, getLocalCumulativeBiVector"]}
{"id": "C21", "title": "Manifold spline: knots form a sorted set", "statement": "However knots and control vertices are added, the spline holds each time once in increasing order; adding a time that is already present keeps the first control vertex; the result is independent of insertion order of distinct times.", "quantifier": "for every sequence of additions", "why_tests_cant": "Quantifies over all operation sequences and permutations.", "anchors": ["bsplines/include/bsplines/implementation/DiffManifoldBSplineImpl.hpp: addKnot, addControlVertex, addKnots, addKnotsAndControlVertices"]}
{"id": "C22", "title": "Manifold spline: life cycle", "statement": "A spline can be evaluated or extended only after a successful initialisation, initialising twice or with fewer than one valid segment raises an exception, and a failed initialisation leaves the spline in construction. Points off the manifold are rejected.", "quantifier": "for every sequence of API calls", "why_tests_cant": "Quantifies over all call sequences.", "anchors": ["bsplines/include/bsplines/implementation/DiffManifoldBSplineImpl.hpp: init, assertEvaluable, assertConstructing, addControlVertex, initWithKnots, initWithKnotsAndControlVertices, initConstantSpline"]}
{"id": "C23", "title": "Manifold spline: appending preserves the past", "statement": "Appending n segments with increasing new knots leaves the curve on the old valid interval unchanged, increases the number of valid segments by exactly n, keeps the minimum time, moves the maximum time n knots on, and gives the newly relevant control vertices the requested value.", "quantifier": "for every spline, every n, every increasing continuation of the knots, repeatedly", "why_tests_cant": "Every history of appends and all knot spacings.", "anchors": ["bsplines/include/bsplines/implementation/DiffManifoldBSplineImpl.hpp: appendSegments, appendSegmentsUniformly, initializeBasisMatrices"]}
{"id": "C24", "title": "Manifold spline: copies are independent", "statement": "A copy evaluates like the original at the time of copying and later changes to either do not affect the other.", "quantifier": "for every spline and every sequence of operations on either object after the copy", "why_tests_cant": "Aliasing can only be excluded over all later histories.", "anchors": ["bsplines/include/bsplines/DiffManifoldBSpline.hpp: copy constructor", "bsplines/include/bsplines/implementation/DiffManifoldBSplineImpl.hpp: operator=, initIterators"]}
{"id": "C25", "title": "Manifold spline: segment lookup", "statement": "For every time in the valid interval the evaluator uses the last knot not after that time (the last valid segment for the maximum time) and order-many control vertices, all of which exist; times outside raise an exception.", "quantifier": "for every initialised spline and every time", "why_tests_cant": "All knot sets and times, including times equal to knots.", "anchors": ["bsplines/include/bsplines/implementation/DiffManifoldBSplineImpl.hpp: getSegmentIterator, getFirstRelevantSegmentByLast, Evaluator"]}
{"id": "C26", "title": "Cumulative form equals the B-spline curve", "statement": "On a vector space the group style evaluation (first vertex, then successive weighted differences) returns the same point as the weighted sum of control vertices and as the plain spline class with the same knots and coefficients.", "quantifier": "for every initialised Euclidean spline and every valid time", "why_tests_cant": "Identity for all orders and all vertices.", "anchors": ["bsplines/include/bsplines/implementation/DiffManifoldBSplineImpl.hpp: evalGeneric, getLocalCumulativeBi", "bsplines/include/bsplines/implementation/EuclideanBSplineImpl.hpp: evalD", "bsplines/src/BSpline.cpp: evalD"]}
{"id": "C27", "title": "Lie group splines are left invariant", "statement": "Multiplying all control vertices from the left by a group element multiplies the curve by it; a spline with equal vertices is constant; and the curve stays in the group.", "quantifier": "for every Lie group spline, every group element and every valid time", "why_tests_cant": "All group elements, vertices and times.", "anchors": ["bsplines/include/bsplines/implementation/DiffManifoldBSplineImpl.hpp: evalGeneric", "bsplines/include/bsplines/manifolds/LieGroup.hpp: expInto, logInto"]}
{"id": "C28", "title": "Quaternion spline stays a rotation", "statement": "Evaluating a quaternion spline whose control vertices are unit quaternions returns a unit quaternion.", "quantifier": "for every unit quaternion spline and every valid time", "why_tests_cant": "All vertices, all times, all orders.", "anchors": ["bsplines/include/bsplines/implementation/UnitQuaternionBSplineImpl.hpp: eval, CalculationCache", "bsplines/include/bsplines/manifolds/UnitQuaternionManifold.hpp"]}
{"id": "C29", "title": "Quaternion derivatives", "statement": "The first, second and third derivative queries of a quaternion spline return the exact time derivatives of the evaluated quaternion curve, and the special first derivative routine agrees with the general one.", "quantifier": "for every quaternion spline, every time inside a segment", "why_tests_cant": "Tests use finite differences at few times with tolerance.", "anchors": ["bsplines/include/bsplines/implementation/UnitQuaternionBSplineImpl.hpp: evalRiD, evalD, evalD1Special, evalDRecursive, evalDRecursiveProductRest"]}
{"id": "C30", "title": "Angular velocity and acceleration", "statement": "The angular velocity query is the unique vector w with q' = 1/2 w q for the evaluated curve q up to the library's convention, and the angular acceleration query is its time derivative.", "quantifier": "for every unit quaternion spline, every time inside a segment", "why_tests_cant": "The test only covers a constant rate rotation.", "anchors": ["bsplines/include/bsplines/implementation/UnitQuaternionBSplineImpl.hpp: evalAngularDerivative, evalAngularVelocity, evalAngularAcceleration"]}
{"id": "C31", "title": "Bulk control vertex updates", "statement": "Setting n control vertices from a time and offset writes exactly the n requested consecutive vertices in order, leaves all others unchanged, and never touches memory outside the spline; asking for more vertices than exist is rejected.", "quantifier": "for every spline, start time, offset (positive or negative) and n", "why_tests_cant": "Offsets near both ends for all splines.", "anchors": ["bsplines/include/bsplines/implementation/DiffManifoldBSplineImpl.hpp: manipulateControlVertices, setControlVertices", "bsplines/include/bsplines/implementation/DiffManifoldBSplineTools.hpp: moveIterator"]}
{"id": "C32", "title": "Interval knot generator", "statement": "The uniform interval generator produces exactly the number of knots required for the requested segments, strictly increasing, with the valid interval starting and ending exactly at the requested times, and rejects empty intervals and non-positive counts.", "quantifier": "for every order, interval and segment count", "why_tests_cant": "All orders and counts.", "anchors": ["bsplines/include/bsplines/KnotArithmetics.hpp: IntervalUniformKnotGenerator, UniformTimeCalculator", "bsplines/include/bsplines/SimpleTypeTimePolicy.hpp"]}
{"id": "C33", "title": "Step knot generator", "statement": "The fixed step generator produces strictly increasing knots with the requested step, starts the valid interval at the requested time, stops exactly when the valid interval reaches beyond the requested end, and always terminates for a positive step.", "quantifier": "for every order, start, end and positive step", "why_tests_cant": "Termination and exact count for all inputs.", "anchors": ["bsplines/include/bsplines/KnotArithmetics.hpp: DeltaUniformKnotGenerator"]}
{"id": "C34", "title": "Uniform time calculator on integer clocks", "statement": "Looking up the segment of a generated knot time returns the index of that knot, for floating and for integer (nanosecond) time.", "quantifier": "for every interval, segment count and knot index", "why_tests_cant": "Fails only for durations not divisible by the segment count, which tests with round numbers miss.", "anchors": ["bsplines/include/bsplines/KnotArithmetics.hpp: UniformTimeCalculator, getKnotIndexAtTime, getTimeByKnotIndex", "bsplines/include/bsplines/SimpleTypeTimePolicy.hpp: linearlyInterpolate, getSegmentNumber"]}
{"id": "C35", "title": "Free knot generator", "statement": "The generator with predefined knots emits strictly increasing knots that contain all predefined knots of the covered interval and never reads from an empty queue.", "quantifier": "for every sequence of predefined knots and extension times", "why_tests_cant": "The empty queue case needs all predefined knots to precede the extension time.", "anchors": ["bsplines/include/bsplines/KnotArithmetics.hpp: DeltaFreeKnotGenerator, getExtendedEndTime"]}
{"id": "C36", "title": "Numerical integration rules", "statement": "The composite trapezoidal rule integrates affine functions exactly and Simpson's rule integrates cubic polynomials exactly; both are linear in the integrand, give zero for equal bounds, change sign when bounds are swapped and integrate constants exactly.", "quantifier": "for every interval, number of points (at least two) and integrand of the class", "why_tests_cant": "Exactness for all coefficients, intervals and point counts.", "anchors": ["bsplines/include/bsplines/NumericIntegrator.hpp: SimpsonRule, TrapezoidalRule, integrateFunctor"]}
{"id": "C37", "title": "Node cache slots", "statement": "Two registered slots never share storage; reading a slot of a node returns what was last written through that slot to that node; a newly registered slot has no valid value on any node.", "quantifier": "for every sequence of registrations, releases, writes and reads", "why_tests_cant": "Slot reuse after release needs particular histories.", "anchors": ["bsplines/include/bsplines/NodeDistributedCache.hpp"]}
{"id": "C38", "title": "Fit minimises the weighted cost", "statement": "The control vertices computed by the fitter minimise the weighted sum of squared residuals plus the regularisation integral over all choices of the free vertices, and fixed vertices keep their values.", "quantifier": "for every set of times, points, weights, regularisation and number of fixed vertices, and every competitor", "why_tests_cant": "Optimality quantifies over all competitors.", "anchors": ["bsplines/include/bsplines/implementation/BSplineFitterImpl.hpp: calcFittedControlVertices, fitSpline"]}
{"id": "C39", "title": "Extending a fit pairs times with points", "statement": "When a spline is extended and refitted with new measurements, every new time is used together with its own point, and the data used are exactly the retained old samples followed by the new measurements.", "quantifier": "for every spline and every list of new times and points", "why_tests_cant": "Mispairing only appears when some of the new times precede the spline start.", "anchors": ["bsplines/include/bsplines/implementation/BSplineFitterImpl.hpp: extendAndFitSpline"]}
{"id": "C40", "title": "Pose spline: inverse and round trip", "statement": "The inverse transformation query is the two sided matrix inverse of the transformation query; converting a curve value to a transformation and back returns the value (for rotation parametrisations that round trip), with position in the last column and a proper bottom row.", "quantifier": "for every pose spline, every time and every rotation parametrisation returning orthogonal matrices", "why_tests_cant": "All rotation parameters and times.", "anchors": ["bsplines/src/BSplinePose.cpp: transformation, inverseTransformation, curveValueToTransformation, transformationToCurveValue"]}
{"id": "C41", "title": "Pose spline: velocities and frames", "statement": "Linear velocity and acceleration queries are the first and second derivatives of the position query; body frame versions are the world quantities rotated by the inverse orientation.", "quantifier": "for every pose spline, every time inside a segment", "why_tests_cant": "Exact equality for all inputs.", "anchors": ["bsplines/src/BSplinePose.cpp: linearVelocity, linearAcceleration, linearAccelerationBodyFrame, position"]}
{"id": "C42", "title": "Design variables mirror coefficients", "statement": "The design variables of an optimisable spline always correspond one to one and in order with its coefficients; updating one changes exactly its coefficient; after adding or removing segments every surviving design variable still denotes the same coefficient and none refers to freed memory.", "quantifier": "for every sequence of add, remove and update operations", "why_tests_cant": "Stale mappings only show after particular operation sequences.", "anchors": ["aslam_splines/include/aslam/splines/implementation/BSplineDesignVariable.hpp: addSegment, addSegment2, removeSegment", "aslam_splines/src/BSplinePoseDesignVariable.cpp"]}
{"id": "C43", "title": "Optimisable manifold spline: design variable list", "statement": "After initialising, copying, assigning or extending an optimisable manifold spline, its list of design variables is exactly its relevant control vertices, in order.", "quantifier": "for every way of initialising and every sequence of extension, copy and assignment", "why_tests_cant": "Only some initialisation paths and assignment go wrong.", "anchors": ["aslam_splines/include/aslam/splines/implementation/OPTBSplineImpl.hpp: init, appendSegments, updateDesignVariablesVector", "aslam_splines/include/aslam/splines/OPTBSpline.hpp: copy constructor", "bsplines/include/bsplines/implementation/DiffManifoldBSplineImpl.hpp: initWithKnots, initConstantSpline"]}
{"id": "C44", "title": "Expressions with variable time", "statement": "An expression of the spline at a time expression always evaluates to the curve value at the current value of the time expression, however that time changed before, and rejects times outside its declared bounds.", "quantifier": "for every sequence of time values and evaluations", "why_tests_cant": "Needs a history in which the time moves from inside a segment onto its left knot.", "anchors": ["aslam_splines/include/aslam/splines/implementation/OPTBSplineImpl.hpp: TimeExpressionFactoryData::getEvaluator"]}
{"id": "C45", "title": "Time offset window covers its design variables", "statement": "An expression with a time window announces every coefficient that can influence its value for any time in its window, and each Jacobian block it emits belongs to the coefficient it is emitted for, all other announced coefficients getting zero.", "quantifier": "for every spline, initial time, margins and every later time in the window", "why_tests_cant": "All placements of the window relative to the knots.", "anchors": ["aslam_splines/src/BSplineExpressions.cpp: TransformationTimeOffsetExpressionNode"]}
{"id": "C46", "title": "Motion error term", "statement": "The motion error term evaluates to the integral of the weighted squared derivative of the current curve (order reduced to order-1 if too high), and the Hessian and right hand side it contributes are those of this quadratic function in the Gauss-Newton convention, restricted to active variables.", "quantifier": "for every spline, weight, derivative order, activity pattern and current coefficients", "why_tests_cant": "All activity patterns and weights.", "anchors": ["aslam_splines/include/aslam/backend/implementation/BSplineMotionError.hpp"]}
{"id": "C47", "title": "Quadratic integral error terms", "statement": "The error terms added for a quadratic integral have squared errors that sum to the numerical integral of the squared weighted expression with the chosen rule; nothing is added for an empty interval.", "quantifier": "for every interval, number of points, integrand and weight", "why_tests_cant": "All point counts and integrands.", "anchors": ["aslam_splines/include/aslam/backend/QuadraticIntegralError.hpp: addQuadraticIntegralErrorTerms, addQuadraticIntegralExpressionErrorTerms"]}
{"id": "C48", "title": "Update and revert", "statement": "Reverting after an update restores the control vertex exactly; an update keeps the vertex on the manifold; and the minimal difference after updating by a small vector returns that vector.", "quantifier": "for every vertex, every update vector (in the domain of the logarithm) and every sequence of updates", "why_tests_cant": "All vectors and sequences.", "anchors": ["aslam_splines/include/aslam/splines/OPTBSpline.hpp: SegmentData::updateImplementation, revertUpdateImplementation, setParametersImplementation", "bsplines/include/bsplines/manifolds/LieGroup.hpp: DiffManifoldPointUpdateTraits"]}
{"id": "C49", "title": "Jacobians of expressions with moving time", "statement": "The derivative with respect to the time variable (line delay or time offset) contributed by a time dependent spline expression is the chain rule product of the curve's time derivative and the derivative of the time.", "quantifier": "for every spline, time and line", "why_tests_cant": "Exact derivative identity.", "anchors": ["aslam_splines/src/BSplineRSExpressions.cpp", "aslam_splines/src/BSplineExpressions.cpp: TransformationTimeOffsetExpressionNode::evaluateJacobiansImplementation"]}
{"id": "C50", "title": "Acceleration expression Jacobian", "statement": "The Jacobian emitted by the body frame acceleration expression is the derivative of the value the expression returns with respect to the coefficients.", "quantifier": "for every pose spline, time and coefficient perturbation", "why_tests_cant": "Needs a curve with rotation; tests without rotation cannot see it.", "anchors": ["aslam_splines/src/BSplineExpressions.cpp: BSplineAccelerationBodyFrameExpressionNode", "bsplines/src/BSplinePose.cpp: linearAccelerationBodyFrame"]}
{"id": "C51", "title": "Appending a segment with smoothing", "statement": "After appending a segment with end time t, end value p and smoothing weight lambda, the valid interval ends at t and, as the documentation says, the curve interpolates the former end value and p.", "quantifier": "for every spline, every new end time past the end, every value and every lambda", "why_tests_cant": "Needs all weights and all tails of coefficients; a test with a straight curve cannot see a missing term.", "anchors": ["bsplines/src/BSpline.cpp: addCurveSegment2", "bsplines/include/bsplines/BSpline.hpp: doc of addCurveSegment2"]}
{"id": "C52", "title": "Straight lines are reproduced", "statement": "If every control vertex is the value of a straight line at the average of the order-1 knots following the first knot of its support (its Greville abscissa), then the curve is that line: value, constant first derivative and vanishing higher derivatives at every time.", "quantifier": "for every order from 2 up, every nondecreasing knot vector and every line", "why_tests_cant": "Universally quantified over knot vectors; exact identity.", "anchors": ["bsplines/src/BSpline.cpp: evalD, M"]}
{"id": "C53", "title": "Uniform fit with acceleration penalty is least squares optimal", "statement": "The second fitting initialiser places uniform knots over the data, and its coefficients minimise the sum of squared residuals plus lambda squared times the sum of the squared second derivatives at all valid knots, over all coefficient choices for these knots.", "quantifier": "for every order, data set, segment count and weight", "why_tests_cant": "Optimality against all competitors.", "anchors": ["bsplines/src/BSpline.cpp: initSpline2"]}
{"id": "C54", "title": "Integral of a Euclidean manifold spline", "statement": "The integral query of a Euclidean manifold spline returns the integral of the evaluated curve between the two times (up to the 1e-16 tolerances in the code), is exactly additive over adjoining intervals and changes sign when the bounds are exchanged.", "quantifier": "for every initialised Euclidean spline, all control vertices and all pairs of valid times in either order", "why_tests_cant": "A test compares a few splines and bounds against a numeric quadrature; the statement covers every order, knot vector, number of whole segments between the bounds and every placement of the bounds, including the effect of the tolerances.", "anchors": ["bsplines/include/bsplines/implementation/EuclideanBSplineImpl.hpp: evalIntegral"]}
{"id": "C55", "title": "Initialising with knots and control vertices", "statement": "Initialising an empty manifold spline with strictly increasing knots and matching control vertices on the manifold succeeds and yields exactly these knots in order, exactly these control vertices, the matching vertex count, and a valid interval from the knot numbered order-1 to the knot numbered by the vertex count.", "quantifier": "for every order, every increasing knot list and every matching list of control vertices", "why_tests_cant": "All orders, lengths and values.", "anchors": ["bsplines/include/bsplines/implementation/DiffManifoldBSplineImpl.hpp: initWithKnotsAndControlVertices, initIterators, setControlVertices"]}
{"id": "C56", "title": "Pose Jacobians are true derivatives", "statement": "For the transformation, its inverse, the orientation and its inverse, a transformed point, the linear acceleration and the angular velocity in both frames, the Jacobian returned with the value is the derivative of that value with respect to the local spline coefficients (rotations and transformations perturbed on the left as the code's convention says), whatever direction the coefficients move in.", "quantifier": "for every valid pose spline, every time in its range, every direction of change of all coefficients, every rotation parametrisation whose S matrix is its derivative", "why_tests_cant": "Finite differences sample a few coefficients, times and parametrisations and carry truncation error; the statement covers all of them exactly.", "anchors": ["bsplines/src/BSplinePose.cpp: transformationAndJacobian, inverseTransformationAndJacobian, orientationAndJacobian, inverseOrientationAndJacobian, transformVectorAndJacobian, linearAccelerationAndJacobian, angularVelocityAndJacobian, angularVelocityBodyFrameAndJacobian"]}
{"id": "C57", "title": "Angular velocity is the rotation rate", "statement": "The angular velocity returned by a pose spline is the rate of rotation of its orientation: the derivative of the orientation matrix is the negative cross matrix of the world frame angular velocity times the orientation (in the sign convention of the parametrisation), and the body frame angular velocity is the same vector expressed in the body frame.", "quantifier": "for every valid pose spline, every time inside a segment and every rotation parametrisation", "why_tests_cant": "All splines, times and parametrisations.", "anchors": ["bsplines/src/BSplinePose.cpp: angularVelocity, angularVelocityBodyFrame"]}
{"id": "C58", "title": "Queries with Jacobian return the same value", "statement": "Every pose query that also returns a Jacobian returns exactly the same value as the query of the same name without a Jacobian.", "quantifier": "for every valid pose spline, every time and every rotation parametrisation", "why_tests_cant": "All splines and times; tests only look at the Jacobians.", "anchors": ["bsplines/src/BSplinePose.cpp: ...AndJacobian methods"]}
{"id": "C59", "title": "Angular acceleration is the derivative of angular velocity", "statement": "The body frame angular acceleration returned by a pose spline is the time derivative of the body frame angular velocity it returns.", "quantifier": "for every valid pose spline, every time inside a segment and every rotation parametrisation", "why_tests_cant": "All splines, times and parametrisations.", "anchors": ["bsplines/src/BSplinePose.cpp: angularAccelerationBodyFrame, angularVelocityBodyFrame"]}
{"id": "C60", "title": "Spline expressions report their design variables and Jacobians", "statement": "The expression nodes built on pose splines and Euclidean splines (transformation, rotation, Euclidean position and derivatives, angular velocity, vector) emit one Jacobian block for exactly each of the design variables they report, in order, and the sum of the blocks applied to any change of the design variables is the derivative of the node's value.", "quantifier": "for every valid spline, every time in range and every change of the design variables", "why_tests_cant": "All splines, times and directions.", "anchors": ["aslam_splines/src/BSplineExpressions.cpp: ...ExpressionNode::evaluateJacobiansImplementation, getDesignVariablesImplementation", "aslam_splines/include/aslam/splines/implementation/BSplineExpressions.hpp"]}
{"id": "C61", "title": "Jacobians of quaternion splines", "statement": "The Jacobian of a unit quaternion spline's value or of its first or second time derivative, returned by an evaluator, has one block for each relevant control vertex; the sum of the blocks applied to the tangent vectors by which the control vertices are updated is the derivative of the queried quantity, no other control vertex matters, and unsupported derivative orders are rejected with an exception.", "quantifier": "for every quaternion spline of every order, every time in range, every derivative order and every tangent update of the control vertices", "why_tests_cant": "Finite differences check single splines, orders and directions to a tolerance; the claim is an exact identity for all of them.", "anchors": ["bsplines/include/bsplines/implementation/UnitQuaternionBSplineImpl.hpp: evalJacobian, evalJacobianDRecursive, evalJacobianDRecursiveProductRest, getRiDJacobian, getPhiVectorJacobian, getRiQuaternionProduct"]}
{"id": "C62", "title": "Jacobians of angular velocity and acceleration", "statement": "The Jacobians of the angular velocity and of the angular acceleration of a unit quaternion spline with respect to tangent updates of its control vertices are the derivatives of these quantities.", "quantifier": "for every quaternion spline, every time in range and every tangent update of the control vertices", "why_tests_cant": "All splines, times and directions; exact identity.", "anchors": ["bsplines/include/bsplines/implementation/UnitQuaternionBSplineImpl.hpp: evalAngularDerivativeJacobian, evalAngularVelocityJacobian, evalAngularAccelerationJacobian"]}
{"id": "C63", "title": "Jacobians and design variables of optimisable spline expressions", "statement": "An expression node of an optimisable manifold spline (value, derivative, angular velocity, angular acceleration, at a constant or at a variable time) announces a set of design variables, gives the Jacobian container a block for exactly these, and the blocks together are the derivative of the node's value times the chain rule matrix under simultaneous updates of the control vertices and of the time.", "quantifier": "for every spline, every time in range, every history of evaluations of a node with variable time, every chain rule matrix and every direction of the design variables", "why_tests_cant": "All splines, times, histories and directions; exact identity of derivatives.", "anchors": ["aslam_splines/include/aslam/splines/implementation/OPTBSplineImpl.hpp: evaluateJacobiansImplementation, getDesignVariables, makeSureForEveryDesignVariableAJacobianGetsAdded", "aslam_splines/include/aslam/splines/OPTBSpline.hpp: ConstTimeFactoryData, TimeExpressionFactoryData", "aslam_splines/include/aslam/splines/implementation/OPTUnitQuaternionBSplineImpl.hpp: getAngularVelocityExpression, getAngularAccelerationExpression"]}
{"id": "C64", "title": "Motion error terms made by the factory", "statement": "addMotionErrorTerms adds one error term for each valid segment, in order, holding the design variables of the coefficients of that segment in order, a matrix R with R^T R the quadratic integral of the segment, and d = R c. If the error of a term is d + R (c' - c), the squared errors of all terms add up to the integral over the valid interval of the weighted square of the requested derivative of the current curve, which is also the value of BSplineMotionError. A weight that is not symmetric is rejected before any term is added.", "quantifier": "for every spline, every symmetric positive semidefinite weight, every derivative order below 2^31, every history of the design variables and every later value of the coefficients", "why_tests_cant": "All splines, weights and coefficients, and every singular value decomposition (it is not unique); exact identity of integrals.", "anchors": ["bsplines/src/BSpline.cpp: segmentIntegral", "aslam_splines/include/aslam/backend/implementation/BSplineMotionErrorFactory.hpp: addMotionErrorTerms"]}
{"id": "C65", "title": "Noise propagation of the rolling shutter reprojection error", "statement": "For a world point seen from the pose spline at the observation time, the matrix A computed by covarianceMatrix is the Jacobian of the rolling shutter residual y - pi(T(t0 + y_1 l)^-1 w) with respect to the measurement y. evaluateError sets the error to measurement minus projection and the weight to (A R A^T)^-1, which is positive definite when the keypoint weight is and A is invertible; the cost is the keypoint's cost of the noise explaining the error.", "quantifier": "for every pose spline, time, camera, keypoint, world point and line delay", "why_tests_cant": "Exact derivative of a residual through the moving pose, for all trajectories and cameras; a test with an unrotated camera does not see the missing rotation.", "anchors": ["aslam_splines/include/aslam/backend/implementation/CovarianceReprojectionError.hpp: covarianceMatrix", "aslam_splines/include/aslam/backend/implementation/CovarianceReprojectionError.hpp: evaluateErrorImplementation"]}
{"id": "C66", "title": "Design variables of the rolling shutter pose spline and of Euclidean splines", "statement": "The rolling shutter pose design variable is a table of the spline's coefficients followed by the line delay: indices below n are the coefficients, n is the line delay, larger ones are rejected, different indices are different objects; updates and reverts change exactly that entry and never the knots, order or basis. The active index query agrees with the spline in use; the expression for a line has the value of the pose at t0 + line * line delay for the current table; what it adds to the Jacobians concerns only variables it has announced. A Euclidean expression takes exactly the variables of the local coefficients.", "quantifier": "for every spline, line delay, start time, line and sequence of updates and reverts, valid or not", "why_tests_cant": "The line delay moves the observation over arbitrarily many segments during an optimisation of arbitrary length; a test with a small delay stays in one segment.", "anchors": ["aslam_splines/src/BSplineRSPoseDesignVariable.cpp", "aslam_splines/src/BSplineRSExpressions.cpp: getDesignVariablesImplementation", "aslam_splines/src/EuclideanBSplineDesignVariable.cpp"]}
{"id": "C67", "title": "Constant initialisation of manifold splines", "statement": "Initialising a fresh manifold spline with a constant succeeds on every strictly increasing knot sequence of at least twice the order: the knots are those given and every vertex is the constant. The uniform version places exactly numSegments equal segments on [tMin, tMax] with order - 1 knots of the same spacing on each side; the version with a knot distance reaches at least the given time and overshoots by less than one distance. Bad arguments, a constant outside the manifold and an already initialised spline are rejected. The curve is the constant on the whole interval, with vanishing derivatives for Euclidean splines.", "quantifier": "for every order, interval, number of segments, knot distance, constant, manifold and time", "why_tests_cant": "Tests use a few orders and segment counts and sample the curve; here the curve is constant at all times, for all orders and all groups.", "anchors": ["bsplines/include/bsplines/implementation/DiffManifoldBSplineImpl.hpp: initConstantSpline, initConstantUniformSpline, initConstantUniformSplineWithKnotDelta", "bsplines/include/bsplines/KnotArithmetics.hpp"]}
{"id": "C68", "title": "Expressions of plain splines and the simple spline error", "statement": "The expression of a plain spline at a time for a derivative order is made exactly if the dimensions agree; it takes each active coefficient once, has the value of the curve's derivative, and its Jacobian blocks concern exactly its variables and are the derivative of its value. The simple error is the value minus the measurement, an affine function of the coefficients with the emitted Jacobian as linear part, and the returned cost is its square with gradient twice the error times the Jacobian.", "quantifier": "for every spline of every order and dimension (error: dimension one), time, derivative order, measurement and change of the coefficients", "why_tests_cant": "The test compares one Jacobian with finite differences up to 1e-6; here it is exact for all splines and directions.", "anchors": ["aslam_splines/include/aslam/splines/implementation/BSplineExpressions.hpp", "aslam_splines/include/aslam/splines/implementation/BSplineDesignVariable.hpp: toExpression", "aslam_splines/include/aslam/backend/implementation/SimpleSplineError.hpp"]}
{"id": "C69", "title": "The tutorial problem is well formed and its Jacobians are right", "statement": "For every number of steps the tutorial program either rejects it or hands a well formed problem to the optimiser: a cubic spline on [0, K] with K segments, one distinct variable for each of its K + 3 control vertices and the wall, a prior and two terms for each step. At every moment of the optimisation each term announces distinct variables of the problem, has an error and a cost of inverse variance times the squared error, and its Jacobians concern exactly the announced variables and are the derivative of the error (for observations: away from the origin). The optimisation starts with the stated errors, and without noise the true motion and wall leave none; for this, Euclidean manifold splines reproduce affine motions.", "quantifier": "for every number of steps, all random numbers, all vertices, wall positions and changes of the variables; linear precision for every order, knot sequence and time", "why_tests_cant": "The tutorial's test checks one motion term against finite differences; here all terms of problems of any size at all linearisation points are covered.", "anchors": ["aslam_backend_bsplines_tutorial/src/exampleBST.cpp", "aslam_backend_bsplines_tutorial/src/ErrorTermPriorBST.cpp", "aslam_backend_bsplines_tutorial/src/ErrorTermMotionBST.cpp"]}
{"id": "C70", "title": "Manifold splines are smooth across their knots", "statement": "On the whole time range of an evaluable manifold spline of order k, every evaluation of a derivative d ≤ k-2 succeeds and is continuous, knots included, and for d ≤ k-3 the evaluated (d+1)-th derivative is the derivative of the evaluated d-th one at every inner time. For unit quaternion splines this holds for derivatives up to 3, and the angular velocity is continuous from order 3 on and its derivative is the evaluated angular acceleration from order 4 on, if the control vertices are unit quaternions and the logarithm inverts the exponential on their steps; continuity at a knot holds exactly if it does so for the step that ends there. For Euclidean splines there is no such condition, and away from the knots every derivative is right.", "quantifier": "for every order, knot sequence, list of control vertices, time and derivative within the bounds, and every logarithm", "why_tests_cant": "The tests compare with finite differences at a few times, mostly inside segments; smoothness at knots is a statement about limits.", "anchors": ["bsplines/include/bsplines/implementation/UnitQuaternionBSplineImpl.hpp", "bsplines/include/bsplines/implementation/EuclideanBSplineImpl.hpp", "bsplines/include/bsplines/implementation/DiffManifoldBSplineImpl.hpp"]}
{"id": "C71", "title": "The evaluator's buffers do not show", "statement": "An evaluator keeps the weights of the first derivatives in prepared vectors and computes all others in one shared mutable vector, and hands out references. Its constructor succeeds exactly where the spline can be evaluated. Whatever was requested before, a request returns a reference to the derivatives of the Cox–de Boor polynomials or their sums from an index on, without access outside the vectors and independent of uninitialised memory; the sums may be computed in place. A reference to a prepared vector stays right, one to the shared vector until the next request that is not for a prepared one, whose weights it shows from then on. All queries on one evaluator (derivatives, angular derivatives, Jacobians; Euclidean and quaternion splines), in any order and number, give the answers of the spline at that time.", "quantifier": "for every order, spline, time, derivative, template argument (static or dynamic order, maximal derivative), contents of fresh memory and sequence of requests or queries", "why_tests_cant": "The tests make a new evaluator for nearly every query; errors by stale or overwritten buffers depend on the sequence of queries, the template arguments and the contents of memory.", "anchors": ["bsplines/include/bsplines/implementation/DiffManifoldBSplineImpl.hpp", "bsplines/include/bsplines/DiffManifoldBSpline.hpp", "bsplines/include/bsplines/implementation/UnitQuaternionBSplineImpl.hpp", "bsplines/include/bsplines/implementation/EuclideanBSplineImpl.hpp"]}
{"id": "C72", "title": "Sizes and arrays fixed at compile time or run time", "statement": "A size object never holds the marker Dynamic and agrees with its template argument unless that is Dynamic; the product of two sizes never throws and has the product of the values whenever it fits an int. Arrays whose size is fixed at compile time or at run time behave as values: creating, copying, reading, writing and destroying arrays in any order has undefined behaviour only for accesses outside an array, of unwritten elements or of destroyed arrays, one array never changes another, and no memory is leaked. The calculation cache of quaternion splines reads only elements it has written, and frees its memory.", "quantifier": "for every pair of sizes, every program of array operations, every spline order and every stored values", "why_tests_cant": "Double deletion, leaks and reads of uninitialised elements need not show in a test run, and the sequences of operations are unbounded.", "anchors": ["bsplines/include/bsplines/DynamicOrTemplateInt.hpp", "bsplines/include/bsplines/implementation/UnitQuaternionBSplineImpl.hpp"]}
{"id": "C73", "title": "Python interface of the manifold splines", "statement": "Through the Python interface a spline shows what it is: values, derivatives and Jacobians are those of the spline, with an exception outside the valid time range and before initialisation; the relevant knots are those of the segment of the time; the knots and coefficients read from a spline rebuild the same curve, and coefficients that are set are read back; fitting fits the columns of the matrix, and raises an exception without changing anything exactly if the numbers of rows, times, points and weights do not go together. This holds for Euclidean and for unit quaternion splines.", "quantifier": "for every reachable spline, time, derivative order, matrix shape and list of times and weights", "why_tests_cant": "The shapes of the arguments and the histories of the spline are unbounded; size mismatches and invalid iterators need not fail visibly.", "anchors": ["bsplines/include/bsplines/python/DiffManifoldBSplineExporter.hpp", "bsplines_python/src/DiffManifoldBSplinePython.cpp", "bsplines/include/bsplines/implementation/DiffManifoldBSplineImpl.hpp"]}
{"id": "C74", "title": "Uniform initialisation of manifold splines from points", "statement": "Initialising a spline from points with a number of segments or with a knot distance gives evenly spaced knots whose valid interval is the one asked for (from the first time to the first knot not before the last time) and vertices of minimal fitting cost; two points are interpolated and points on a straight line give that line; the generator returned continues behind the last knot. Arguments that do not go together (sizes, order of the times, empty interval, no segments, a distance that is not positive) raise an exception and leave the spline as it was, also when called from Python.", "quantifier": "for every order, interval, number of segments, knot distance, list of times and points, regularisation and solver of semidefinite systems", "why_tests_cant": "Optimality and reproduction of lines are statements about all splines and all data; a call that never ends or that leaves traces after an exception is not seen by checks of results.", "anchors": ["bsplines/include/bsplines/implementation/BSplineFitterImpl.hpp", "bsplines/include/bsplines/KnotArithmetics.hpp", "bsplines/include/bsplines/python/DiffManifoldBSplineExporter.hpp"]}
{"id": "C75", "title": "Python interface of B-splines", "statement": "What Python reads from a B-spline is what the spline is: knots and coefficients set are those read, with the sizes reported; derivatives above the reported degree vanish; the function objects for basis functions give the value of every integer index (zero outside the coefficients, not negative, sum one, their weighted sum of coefficients the curve), those for cumulative basis functions the tail sums (one up to index zero, never increasing, giving the curve from the differences of coefficients); the basis matrix of a segment holds the polynomials of its basis functions and other segment numbers are rejected; the coefficient vector asked for a segment is that of this segment.", "quantifier": "for every valid spline of any order, dimension and knots, every time, every integer index and every segment number", "why_tests_cant": "The functions take any integer and any time; sums and signs over all indices, and polynomials as opposed to values, are not seen by samples.", "anchors": ["bsplines_python/src/BSplinePython.cpp", "bsplines/src/BSpline.cpp"]}
{"id": "C76", "title": "Reproduction of polynomials and steady motions", "statement": "For all polynomials of degree below the order there are coefficients with which the curve and all its derivatives are those of the polynomials, for any knots, and if no segment is empty coefficients are determined by the curve. The initialisations from data make evenly spaced knots, meet data on polynomials of degree below the order if nothing is penalised, meet data on straight lines with any penalty and then, with a positive penalty, are the line on the whole interval; poses of a steady motion given to the initialisations of pose splines are met, and with a positive penalty position, velocity and acceleration are those of the motion at all times.", "quantifier": "for every order, knots, number of segments, data, penalty, solver of semidefinite systems, rotation parametrisation and every list of polynomials", "why_tests_cant": "The space of splines and the set of polynomials are infinite; that nothing but the line minimises the cost cannot be seen from values at some times.", "anchors": ["bsplines/src/BSpline.cpp", "bsplines/src/BSplinePose.cpp"]}
{"id": "C77", "title": "Differentials of Lie group manifolds", "statement": "The matrices returned by dexp and dlog are the derivatives of exp and log in their second argument, the matrix that comes with the minimal difference of a control vertex from a reference point is the derivative of that difference with respect to an update of the vertex, it is the identity when the vertex is the reference point, and dlog undoes dexp wherever log undoes exp. A reference of the wrong size raises an exception. This holds for every Lie group manifold whose product and exponential come with their derivatives, in particular for Euclidean spaces and unit quaternions.", "quantifier": "for all points of the group, all tangent vectors, all dimensions of Euclidean spaces", "why_tests_cant": "A derivative at all points is a limit statement; a finite difference at random points cannot tell left from right multiplication where the two nearly agree.", "anchors": ["bsplines/include/bsplines/manifolds/LieGroup.hpp", "bsplines/include/bsplines/manifolds/implementation/LieGroupImpl.hpp", "bsplines/include/bsplines/manifolds/implementation/UnitQuaternionManifoldImpl.hpp", "bsplines/include/bsplines/manifolds/implementation/EuclideanSpaceImpl.hpp"]}
{"id": "C78", "title": "Local coefficient vectors of manifold splines", "statement": "Reading the local coefficient vector of a manifold spline at a time gives the control vertices the curve depends on there, in the order of time; writing one replaces exactly those vertices and nothing else, what was written is read, writing back what was read changes nothing, and the curve changes only where it depends on them. A vector of the wrong size, a wrong point size, a time outside the valid interval, a point off the manifold and a spline that is not initialised raise an exception and change nothing. The distance to the neighbour knots is the distance to the nearest of all knots.", "quantifier": "for every order, manifold, point size, spline built by regular calls, time and coefficient vector", "why_tests_cant": "That nothing else changes and that the loops stop in time are statements about every segment, including the first one and the end of the curve.", "anchors": ["bsplines/include/bsplines/implementation/DiffManifoldBSplineImpl.hpp"]}
{"id": "C79", "title": "A regularised fit is determined by its data", "statement": "With a positive weight of the penalty the least squares initialisation of a B-spline has one result only: it does not depend on whether the equations are dense or sparse, on the solver, on the content of the spline before, or on the order of observations at the same time. It depends on the data as it should: it is linear in the values, a linear map of the values (a rotation, a change of units, a projection to some components) maps the coefficients, adding a motion that is not penalised adds this motion to the curve, and changing the unit or the start of time, with the weight changed accordingly, only changes the knots.", "quantifier": "for all data with at least two different times, all orders from two on, all numbers of segments, dimensions, positive weights and all solvers of positive semidefinite systems", "why_tests_cant": "Tests compare one solver with one expected curve on one data set; that no other result is possible is a statement about all coefficient vectors and all solvers.", "anchors": ["bsplines/src/BSpline.cpp"]}
{"id": "C80", "title": "Times that are infinite or not a number are rejected", "statement": "Whatever double is passed as a time, a lookup either finds the segment of a number inside the valid interval or throws; it never accesses memory outside the knots. The same holds for the start and end time of an initialisation and for the times of the observations of a fit, and a time that is not a number does not hide that the others are in the wrong order.", "quantifier": "for all splines of both classes, all doubles including both infinities and NaN, and all lists of observation times", "why_tests_cant": "NaN arises from data (a division by zero, a missing measurement); no unit test passes it, and the effect of reading behind a vector depends on what lies there.", "anchors": ["bsplines/src/BSpline.cpp", "bsplines/include/bsplines/implementation/DiffManifoldBSplineImpl.hpp", "bsplines/include/bsplines/implementation/BSplineFitterImpl.hpp"]}
{"id": "C81", "title": "Integer arithmetic does not overflow", "statement": "For nanosecond clocks the knots of an interval, the lookup of a segment and the knots of a constant distance are computed with 64-bit integers without overflow, so that they are the values of unbounded integers; the number of knots and the factors of differentiated powers are computed with 32-bit integers without overflow. The assertion in the code that checks the product of duration and number of segments holds exactly if it does not overflow.", "quantifier": "for all intervals, numbers of segments, orders, distances, times inside the interval and derivative orders", "why_tests_cant": "overflow happens only for long recordings at high rates (one hour at one kilohertz), which unit tests do not build; the result is undefined and on usual machines only slightly wrong for a few knots.", "anchors": ["bsplines/include/bsplines/SimpleTypeTimePolicy.hpp", "bsplines/include/bsplines/KnotArithmetics.hpp", "bsplines/src/BSpline.cpp"]}
{"id": "C82", "title": "The derivative of a spline is the spline of its control slopes", "statement": "The derivatives returned for a spline are those of another spline of one order less, over the knots without the first and last one, whose coefficients are the slopes between neighbouring coefficients. Hence the velocity is a convex combination of the slopes whose knots are on both sides of the time, the curve never moves faster than these slopes, in any norm, and a component whose coefficients do not decrease does not decrease.", "quantifier": "for all splines without jumps, all knots, all coefficients, all norms and all times of the valid interval", "why_tests_cant": "a bound for all times and all coefficients cannot be sampled; the code for derivatives uses the factors of powers and never the differences of coefficients.", "anchors": ["bsplines/src/BSpline.cpp", "bsplines/include/bsplines/BSpline.hpp"]}
{"id": "C83", "title": "How fast the rotation of a quaternion spline turns", "statement": "The rate of rotation of a spline of unit quaternions is at every time at most the greatest rate of the steps between the control vertices in use (size of the logarithm times order minus one over the time between its knots), and between two times the rotation turns by no more than this rate times the time between them. Control vertices taken from a rotation of constant rate at the averages of their knots give back this rotation, with constant angular velocity and no angular acceleration.", "quantifier": "for all orders from two on, all knots, all unit control vertices, all logarithms and all times of the valid interval", "why_tests_cant": "a bound for all times and all control vertices cannot be sampled; the code never computes such a rate.", "anchors": ["bsplines/include/bsplines/implementation/UnitQuaternionBSplineImpl.hpp", "bsplines/include/bsplines/implementation/DiffManifoldBSplineImpl.hpp"]}
{"id": "C84", "title": "Knots and lookup of times in floating point", "statement": "With every operation on times rounded, the knots computed for the fits and after appending a segment are still ordered numbers of the format, the valid interval starts exactly at the first time of the data, every time from the first to the last valid time is found in a segment that contains it, with a relative position between zero and one, every other time is rejected except within the tolerance, and a fit accepts all of its own data.", "quantifier": "for all roundings that are monotone, odd, idempotent and have the error of IEEE doubles, which doubles rounded to nearest are proved to satisfy, all knots and all times without overflow", "why_tests_cant": "rounding errors appear for few of the very many combinations of times and numbers of segments; the tests use small round numbers.", "anchors": ["bsplines/src/BSpline.cpp"]}
{"id": "C85", "title": "Uniform knots and the index resolver in floating point", "statement": "With every operation on times rounded, the interval generator returns the required number of ordered knots and exactly the valid interval asked for, the index resolver inverts it, and hence the fit with uniform knots gives the curve of least cost.", "quantifier": "for all roundings as in C84, all intervals, numbers of segments up to 2^31, orders, data and times", "why_tests_cant": "the index is wrong only for times within one rounding error of a knot; which knots are hit depends on the last bits of the interval.", "anchors": ["bsplines/include/bsplines/SimpleTypeTimePolicy.hpp", "bsplines/include/bsplines/KnotArithmetics.hpp", "bsplines/include/bsplines/implementation/BSplineFitterImpl.hpp"]}
{"id": "C86", "title": "Knots of a given distance in floating point", "statement": "With every operation on times rounded, the loop over the knots of a given distance ends, the knots increase by that distance, the valid interval starts at the first time and contains the last one, so that the fit with a knot distance accepts its own data, and generating in two parts gives the same knots as in one.", "quantifier": "for all roundings as in C84, all times, distances and orders", "why_tests_cant": "whether the sums of the distance stop before or after the last data time depends on the last bits; a loop that never ends cannot be observed by a test that ends.", "anchors": ["bsplines/include/bsplines/KnotArithmetics.hpp", "bsplines/include/bsplines/implementation/BSplineFitterImpl.hpp"]}
{"id": "C87", "title": "A call on a spline that throws leaves the spline as it was", "statement": "If a call that sets, fits, extends, shortens or overwrites a BSpline throws, the spline is the same as before the call. So a program that catches all exceptions ends with the spline made by those of its calls that returned. extendBeyondTime of the generator with predefined knots has the same guarantee.", "quantifier": "for all orders from two on, all splines, all solvers, all arguments and all sequences of calls with caught exceptions", "why_tests_cant": "the calls throw at many places, some after members have been assigned; whether a later place can be reached depends on knots and data in ways that only a proof over all of them excludes.", "anchors": ["bsplines/src/BSpline.cpp", "bsplines/include/bsplines/KnotArithmetics.hpp"]}
{"id": "C88", "title": "A call on a manifold spline that throws leaves the spline as it was", "statement": "If a call that adds knots or vertices, initialises, appends, overwrites or fits a DiffManifoldBSpline throws, the spline is the same as before. So a program that catches all exceptions ends with the spline made by those of its calls that returned.", "quantifier": "for all orders, manifolds, consistent splines, arguments and sequences of calls with caught exceptions", "why_tests_cant": "what a failed call leaves behind depends on which of many elements was rejected and on the knots that were there before.", "anchors": ["bsplines/include/bsplines/implementation/DiffManifoldBSplineImpl.hpp", "bsplines/include/bsplines/implementation/BSplineFitterImpl.hpp"]}
{"id": "C89", "title": "Evaluation in floating point stays within a known distance of the curve", "statement": "With all arithmetic rounded like IEEE doubles, in whatever order the products are summed, evaluation of a spline of order k at a time in its interval returns a value that differs from the curve of the stored knots and coefficients by at most (14(k-1)+8)*4^(k-1)/2^51 times the largest coefficient involved; for cubic splines less than 1e-12 of it. Derivatives and Jacobians have corresponding bounds.", "quantifier": "for all orders, knots, coefficients, times, derivative orders and orders of summation without underflow", "why_tests_cant": "rounding errors depend on every bit of knots, coefficients and time, and on how the compiler and Eigen order the sums; tests compare with another rounded evaluation at a few times.", "anchors": ["bsplines/src/BSpline.cpp"]}
{"id": "C90", "title": "An evaluator stays right while its spline changes", "statement": "An evaluator computes its weights and iterators once, and is kept by expressions while the optimiser writes control vertices and segments are appended. Whatever vertices are written, moved or appended between the queries, every query on the evaluator answers like a new evaluator of the spline as it is then, and the evaluator goes over the same segments as a new one.", "quantifier": "for all splines, times, template arguments, and all interleavings of queries and changes of any length", "why_tests_cant": "the answer depends on the whole history of queries (shared buffer) and of changes; tests create a new evaluator for each query.", "anchors": ["bsplines/include/bsplines/implementation/DiffManifoldBSplineImpl.hpp", "aslam_splines/include/aslam/splines/OPTBSpline.hpp"]}
{"id": "C91", "title": "Pointers to design variables stay valid while their spline lives", "statement": "The segments of an optimisable spline are its design variables; expressions, error terms and the optimiser hold pointers to them, and each holds a reference to the manifold of a spline object. Whatever a program does with this and other spline objects (calls, copies, assignments, destruction of others), a pointer to a design variable of a living spline that is not assigned to can be used to update it: the update changes the vertex of that segment and nothing else.", "quantifier": "for all programs of any length over any number of spline objects, all manifolds, orders and knots", "why_tests_cant": "dangling references usually still read the old bytes; whether they dangle depends on the whole history of copies and lifetimes.", "anchors": ["aslam_splines/include/aslam/splines/OPTBSpline.hpp", "bsplines/include/bsplines/implementation/DiffManifoldBSplineImpl.hpp"]}
{"id": "C92", "title": "A copy of a spline design variable object is independent of its source", "statement": "A spline design variable object owns a spline and one design variable for each coefficient. For every such object, also one that was copied from or assigned from another, updating its i-th design variable moves the i-th coefficient of its own spline and nothing else, in no object.", "quantifier": "for all programs of any length over any number of objects (construction, copy, assignment, destruction, addSegment, addSegment2, removeSegment, update, revert), all splines, dimensions, indices and step vectors", "why_tests_cant": "the copied pointers lead to valid memory of the source as long as that lives and keeps its size; a test that looks at one object only sees nothing wrong.", "anchors": ["aslam_splines/include/aslam/splines/BSplineDesignVariable.hpp", "aslam_splines/include/aslam/splines/implementation/BSplineDesignVariable.hpp", "aslam_splines/include/aslam/splines/BSplinePoseDesignVariable.hpp"]}
{"id": "C93", "title": "Expressions stay right while segments are added to and removed from their spline", "statement": "An expression for the value of a spline at a time keeps what it was made with: design variables, or indices of coefficients. After any further additions, removals and updates that leave the time in the valid interval, the expression still announces exactly the design variables that a new expression for the time would have, its Jacobian has blocks for existing design variables only, and updating any design variable changes the value as the blocks say. If the time has been removed, value and Jacobian throw.", "quantifier": "for all splines (any order from two, any knots, dimension), all histories before and after the expression is made, all times, all derivative orders, all design variables and step vectors; for the transformation and the moving time over the reals and all rotation parametrisations with the differential property", "why_tests_cant": "a test makes an expression and evaluates it at once; that the collected design variables are the right ones after an arbitrary history is a statement about all histories.", "anchors": ["aslam_splines/include/aslam/splines/implementation/BSplineDesignVariable.hpp", "aslam_splines/include/aslam/splines/implementation/BSplineExpressions.hpp", "aslam_splines/src/BSplineExpressions.cpp", "aslam_splines/src/BSplinePoseDesignVariable.cpp"]}
{"id": "C94", "title": "Expressions of optimisable splines stay right while their spline changes", "statement": "The nodes made by an expression factory of an optimisable manifold spline share an evaluator, made with the factory for a constant time or kept from the last use for a variable time. Whatever control vertices are written and segments appended between the calls, and whatever the time expression becomes, each call on a node (value, derivative, angular velocity, Jacobians, design variables) gives what the nodes of a new factory of the spline as it is then would give, and the Jacobian blocks at that point are the derivative of the value.", "quantifier": "for all Euclidean and quaternion splines reachable by regular calls (any order, dimension, template arguments of the evaluator), all programs of calls, changes of the spline and of the time expression, all derivative orders, chain rule matrices and contents of fresh memory", "why_tests_cant": "the tests make a factory and ask its nodes on a finished spline; an evaluator that is kept with its iterators and buffers can only be seen to be stale in programs that mix calls and changes, of which there are infinitely many.", "anchors": ["aslam_splines/include/aslam/splines/OPTBSpline.hpp", "aslam_splines/include/aslam/splines/implementation/OPTBSplineImpl.hpp", "aslam_splines/include/aslam/splines/implementation/OPTUnitQuaternionBSplineImpl.hpp", "bsplines/include/bsplines/DiffManifoldBSpline.hpp"]}
{"id": "C95", "title": "Vectors and matrices of the wrong size are rejected", "statement": "The calls of a B-spline take vectors and matrices of any size, and the dimension of the spline is whatever the last initialisation made it. A call whose sizes fit neither each other nor the dimension of the spline throws and leaves the spline as it was; a call whose sizes fit is the call of a spline with a fixed dimension; an initialising call with points of another dimension makes the spline what it would have made of a spline of that dimension with the same order and knots, and only such calls change the dimension. Quadratic integrals reject weights of other sizes.", "quantifier": "for all orders, dimensions, knots, coefficients, linear solvers, sizes and contents of the arguments, and all programs of calls that catch exceptions", "why_tests_cant": "the tests pass arguments of fitting sizes only; the number of combinations of sizes, earlier states and calls is infinite.", "anchors": ["bsplines/src/BSpline.cpp", "bsplines/include/bsplines/BSpline.hpp"]}
{"id": "C96", "title": "Design variables of a fixed size are the coefficients of their spline", "statement": "The design variable classes hold design variables of a size fixed at compile time (3 for Euclidean, 6 for pose splines) and accept splines of any dimension. Every coefficient can be given any value by updating its design variable without changing another coefficient; the object never writes outside of the coefficients; a spline of another dimension is refused.", "quantifier": "for all dimensions, sizes, orders, knots, coefficients, linear solvers and programs of segment additions, removals, updates and reverts", "why_tests_cant": "the tests use splines of the matching dimension only; a write into the neighbouring coefficient or beyond the matrix is silent.", "anchors": ["bsplines/include/bsplines/BSpline.hpp", "aslam_splines/include/aslam/splines/implementation/BSplineDesignVariable.hpp", "aslam_splines/src/EuclideanBSplineDesignVariable.cpp", "aslam_splines/src/BSplinePoseDesignVariable.cpp"]}
{"id": "C97", "title": "Pose queries need a spline of dimension six", "statement": "A pose spline inherits the initialising functions of BSpline, which accept points of any dimension. A pose spline that is changed through poses only has dimension six once it is initialised, and for dimension six its queries are those of position and rotation parameters. Poses are not added to a spline of another dimension, and the queries of a spline of another dimension are refused.", "quantifier": "for all dimensions, orders, knots, coefficients, rotation parametrisations, times, linear solvers and programs of pose calls that catch exceptions", "why_tests_cant": "the tests only query pose splines of dimension six; reads outside of a vector and products of matrices with mismatching sizes are silent in release builds.", "anchors": ["bsplines/src/BSplinePose.cpp", "bsplines/include/bsplines/BSplinePose.hpp", "bsplines/src/BSpline.cpp"]}
{"id": "C98", "title": "Motion errors vanish exactly on polynomial motions", "statement": "With a positive definite weight the motion error of a spline is zero exactly if the derivative it integrates vanishes on the whole valid interval. If the knots of the valid interval are distinct, these are exactly the splines that are polynomials of a degree below the order of the derivative; each such polynomial has exactly one list of coefficients. Values at finitely many times determine the spline together with the motion error exactly if there are at least as many different times as the order of the derivative.", "quantifier": "for all orders, dimensions, knots, coefficients, positive definite accepted weights, derivative orders below 2^31 and finite sets of times", "why_tests_cant": "a test evaluates the error of some splines and could only find a missing or an additional null direction by chance; the claim is about all coefficients.", "anchors": ["aslam_splines/include/aslam/backend/BSplineMotionError.hpp", "aslam_splines/include/aslam/backend/implementation/BSplineMotionError.hpp", "bsplines/src/BSpline.cpp"]}
{"id": "C99", "title": "Both implementations of fitting agree", "statement": "Fitting a plain spline (initSpline3, initSplineSparse, initSplineSparseKnots) and fitting a Euclidean manifold spline (BSplineFitter, both backends) with the same order, knots, data and weight of the regularisation gives the same knots and coefficients, and so the same values and derivatives everywhere.", "quantifier": "for all dimensions, orders, solvers of positive semidefinite systems, data, numbers of segments or increasing knots, and positive weights", "why_tests_cant": "a comparison in tests covers some data within a tolerance; that two assemblies of different equations have the same solution for all data needs a proof.", "anchors": ["bsplines/src/BSpline.cpp", "bsplines/include/bsplines/implementation/BSplineFitterImpl.hpp", "bsplines/include/bsplines/BSplineFitter.hpp"]}
{"id": "C100", "title": "Time can be scaled, shifted and, for plain and Euclidean splines, reversed", "statement": "A spline whose knots are a t + b with a > 0 and whose control vertices are the same has the valid interval, values and derivatives of the original in the other units: values are the same, derivatives of order d are divided by a^d (also quaternion derivatives, angular velocities and accelerations, and the velocities and accelerations of pose splines), integrals are multiplied by a and quadratic costs of derivative d by a/a^(2d). With the knots c - t and the control vertices in the reverse order plain and Euclidean splines are run backwards: values are the same and derivatives of odd order change their sign, except at inner knots. Quaternion splines have no such symmetry.", "quantifier": "for all fields of scalars (reals for integrals and quaternions), orders, manifolds, splines reachable by the public operations, scales, shifts, times and orders of derivatives", "why_tests_cant": "a test scales some spline by some factor and compares within a tolerance; the laws connect two splines for every scale, shift and time.", "anchors": ["bsplines/src/BSpline.cpp", "bsplines/src/BSplinePose.cpp", "bsplines/include/bsplines/implementation/DiffManifoldBSplineImpl.hpp", "bsplines/include/bsplines/implementation/EuclideanBSplineImpl.hpp", "bsplines/include/bsplines/implementation/UnitQuaternionBSplineImpl.hpp"]}
{"id": "C101", "title": "Curves wiggle at most as much as their control polygons", "statement": "A spline crosses a hyperplane, also one that moves linearly with time, at most as often as its control polygon (control point j at the mean of its inner knots): for all times at which the curve is on alternating sides there are control points on the same sides in the same order. A linear functional of the curve, for instance a component, turns between rising and falling at most as often as its control points, and between bending upwards and downwards at most as often as their slopes; it is nondecreasing, or convex, if they are.", "quantifier": "for all dimensions, orders, well-formed real splines with knots of any multiplicity, hyperplanes, and any number of times", "why_tests_cant": "the claim bounds the number of crossings over all times of the interval and all splines; sampling can miss crossings and cannot cover all knots and coefficients.", "anchors": ["bsplines/src/BSpline.cpp", "bsplines/include/bsplines/implementation/EuclideanBSplineImpl.hpp", "bsplines/include/bsplines/implementation/DiffManifoldBSplineImpl.hpp"]}
{"id": "C102", "title": "Objects of the Python module can be used as long as the program holds them", "statement": "The Python module for optimisation hands out design variables, expressions, error terms and problems that point into the memory of design variable objects. Whatever a Python program makes, aliases and drops, in whatever order: an object it still has a name for can be used without reading memory that was given back, and memory is given back once the program can no longer get at it.", "quantifier": "for all Python sessions of any length over any number of objects of all exported classes", "why_tests_cant": "whether memory is gone depends on the whole history of names; reading freed memory usually still yields the old bytes, and test scripts keep all names until they end.", "anchors": ["aslam_splines_python/src/spline_module.cpp", "aslam_splines_python/src/BSplineMotionError.cpp", "aslam_splines_python/src/SimpleSplineError.cpp", "aslam_splines/include/aslam/splines/implementation/BSplineDesignVariable.hpp", "aslam_splines/src/BSplineRSPoseDesignVariable.cpp", "aslam_splines/include/aslam/backend/implementation/BSplineMotionErrorFactory.hpp"]}
{"id": "C103", "title": "A quaternion spline stays near its control rotations", "statement": "At every valid time the angle between the unit quaternion a quaternion spline returns and any of its control vertices is at most the mean of the lengths of the control polygon from that vertex to all control vertices, weighted with the basis functions of the knots. In particular it is no further from a control vertex than the longest polygon to the vertices in use, and where the vertices in use are all the same the spline returns that vertex.", "quantifier": "for all orders, strictly increasing knots, unit control vertices with an exact logarithm between neighbours, all valid times and all control vertices", "why_tests_cant": "the distance is a supremum over a continuum of times, knots and control vertices; sampled times cannot exclude an excursion between them.", "anchors": ["bsplines/include/bsplines/implementation/UnitQuaternionBSplineImpl.hpp", "bsplines/include/bsplines/implementation/DiffManifoldBSplineImpl.hpp"]}
{"id": "C104", "title": "Numerical integration is as accurate as its number of points allows", "statement": "With n points, two or more, the error of the trapezoidal rule is at most M(b-a)^3/(12(n-1)^2) for every integrand whose derivative has the Lipschitz constant M, the error of Simpson's rule at most M(b-a)^5/(180(n-1)^4) for every integrand whose third derivative has it and M(b-a)^4/(72(n-1)^3) if the second derivative has it; for every continuous integrand both rules converge to the integral. Numerical integration along a Euclidean manifold spline returns for all bounds in the valid range, throws for other distinct bounds, returns zero for equal bounds without looking at them, converges to the integral of the curve for orders from two, with the third power of the number of points for cubic splines and the fourth for higher orders, one constant serving for all bounds.", "quantifier": "for all integrands with the named smoothness and values in a Banach space, all bounds, all numbers of points from two; for all Euclidean splines of a regular client, all bounds inside or outside the range", "why_tests_cant": "a limit and an error bound speak about all numbers of points and all integrands; tests see few numbers of points and integrands for which the rule may be exact.", "anchors": ["bsplines/include/bsplines/NumericIntegrator.hpp", "bsplines/include/bsplines/implementation/DiffManifoldBSplineImpl.hpp"]}
{"id": "C105", "title": "The two implementations of Euclidean splines answer alike", "statement": "A BSpline and a EuclideanBSpline made with the same order, knots and control vertices give the same answers to every sequence of calls both offer: values and derivatives of any order, Jacobians with respect to the local coefficients, reading and writing local coefficients, the bounds of the valid range, the numbers of segments and vertices, and integrals; they throw for the same arguments.", "quantifier": "for all orders from two, all dimensions, all knots and vertices, all finite sequences of calls with all times, derivative orders and coefficient vectors", "why_tests_cant": "agreement of two programs is a statement about all sequences of calls; the tests of each implementation compare it with a reference at a few times of a few splines and never with the other one after a history of writes.", "anchors": ["bsplines/src/BSpline.cpp", "bsplines/include/bsplines/implementation/DiffManifoldBSplineImpl.hpp", "bsplines/include/bsplines/implementation/EuclideanBSplineImpl.hpp"]}
{"id": "C106", "title": "Expression nodes can be used by several threads at once", "statement": "When several threads call the evaluation methods of expression nodes of one optimisable manifold spline at the same time, the spline and the time expressions not being changed meanwhile, there is no data race and no use of deleted memory, and each thread gets for each call the answer a new node would give: the value, or the Jacobian blocks, of the spline at the node's time.", "quantifier": "for all Euclidean and quaternion splines of all orders, all factories for constant and variable times, all finite lists of calls of any number of threads, and all interleavings of their memory accesses", "why_tests_cant": "a test runs a few of the many interleavings, and the harmful ones need a switch between two particular accesses; the tests of the repository use one thread.", "anchors": ["aslam_splines/include/aslam/splines/OPTBSpline.hpp:186-241", "aslam_splines/include/aslam/splines/implementation/OPTBSplineImpl.hpp:60-180", "bsplines/include/bsplines/DiffManifoldBSpline.hpp:380-390", "bsplines/include/bsplines/implementation/DiffManifoldBSplineImpl.hpp:873-896"]}
{"id": "C107", "title": "Manifold splines in floating point stay near the exact curve, and rotations stay unit", "statement": "Computed in floating point, the value of a Euclidean manifold spline and each of its derivatives is that of the exact curve up to the rounding error of a number of operations linear in the order, and the value of a quaternion spline is the exact rotation up to the errors of as many products, exponentials and scalings as the order; for a cubic spline it passes the test for unit quaternions. A control vertex that is updated any number of times remains a unit quaternion up to the error of one projection, and its distance from the exactly updated rotation grows at most linearly with the number of updates.", "quantifier": "for all splines of order at least two reached by regular calls, all doubles as knots and times, all orders of summation, all roundings with the error bound of IEEE 754 and all quaternion functions within given error bounds", "why_tests_cant": "the error depends on knots, time, control vertices, the order in which Eigen adds up and the mathematical library; a test compares a few values with a tolerance and cannot tell whether errors of updates add up over a long optimisation.", "anchors": ["bsplines/include/bsplines/implementation/DiffManifoldBSplineImpl.hpp:392-505", "bsplines/include/bsplines/implementation/DiffManifoldBSplineImpl.hpp:731-845", "bsplines/include/bsplines/implementation/DiffManifoldBSplineImpl.hpp:943-966", "bsplines/include/bsplines/implementation/EuclideanBSplineImpl.hpp:21-44", "bsplines/include/bsplines/implementation/EuclideanBSplineImpl.hpp:102-116", "bsplines/include/bsplines/manifolds/LieGroup.hpp:29-34", "bsplines/include/bsplines/manifolds/implementation/UnitQuaternionManifoldImpl.hpp:20-99"]}
{"id": "C108", "title": "A fit without regularisation is determined exactly if the data times interlace with the knots", "statement": "Initialising a spline from data with regularisation weight zero has exactly one result if, and only if, one can choose for each coefficient a data time strictly inside the interval on which its basis function is not zero, with different times for different coefficients in increasing order. Then the result depends neither on the linear solver nor on whether the equations are dense or sparse nor on the class of splines, and with as many data as coefficients the curve passes through all of them. Otherwise there are, for each solver, a second one that solves all systems as well and yields other coefficients.", "quantifier": "for all orders from two on, all dimensions, all sorted data, all numbers of segments, all strictly increasing knot lists and all solvers that solve consistent positive semidefinite systems", "why_tests_cant": "the condition combines all data times and knots; with data it does not cover the solver picks one of infinitely many curves and no error is reported, so a test sees a plausible curve.", "anchors": ["bsplines/src/BSpline.cpp:848-1166", "bsplines/include/bsplines/BSplineFitter.hpp", "bsplines/include/bsplines/implementation/BSplineFitterImpl.hpp"]}
{"id": "C109", "title": "Coefficients and curve determine each other", "statement": "At a time between two knots the coefficients a spline reports for that time are exactly those on which its value depends, and a change of one of them changes the value by a share strictly between zero and one of the change. At a knot the last one reported has no influence, at the end of the curve the first one. Two splines over the same knots that agree at as many times of one segment as the order have the same coefficients there, and splines with the same curve and no empty segment have the same coefficients. For splines of rotations, and of values in other groups, exactly the control vertices whose interval of support has the time strictly inside have influence on the value.", "quantifier": "for all splines, orders, dimensions, knots, coefficients, times and changes; for all groups with a logarithm whose paths pass no point twice", "why_tests_cant": "whether a coefficient has influence is a statement about all its values, and that no other coefficients give the same curve is one about all coefficient lists.", "anchors": ["bsplines/src/BSpline.cpp:320-350", "bsplines/src/BSpline.cpp:451-470", "bsplines/src/BSpline.cpp:1751-1762", "bsplines/include/bsplines/implementation/DiffManifoldBSplineImpl.hpp", "bsplines/include/bsplines/implementation/UnitQuaternionBSplineImpl.hpp"]}
{"id": "C110", "title": "How a fit depends on the weight of the regularisation and on its data", "statement": "A fit with a larger regularisation weight bends less and has a larger sum of squared residuals. Fits to different values at the same times differ at these times, in the sum of squares, at most as much as the values. The squares of the data are the sum of the squares of the fitted values, of the residuals and of twice the weighted penalty. The residuals are orthogonal to all polynomials that the penalty does not see: they sum to zero, from order three on also when multiplied by their times. The cost is at most that of the best such polynomial, so with growing weight the penalised derivative goes to zero.", "quantifier": "for all orders from two on, dimensions, data, knots, weights not below zero, and solvers that solve consistent positive semidefinite systems, also different ones for the two fits", "why_tests_cant": "these are inequalities between results for all data and weights; a test compares a few fits.", "anchors": ["bsplines/src/BSpline.cpp:848-1166"]}
{"id": "C111", "title": "Adding the error terms of an integral to a problem", "statement": "Adding the error terms of a quadratic integral to an optimisation problem keeps the error terms of the problem, adds one for each point of the integration rule, all at times between the bounds, and adds the numerical integral to the cost. For expressions of a spline the call succeeds exactly if both bounds are times of the spline. If the call throws, because of too few points, a time outside of the spline, or a Python callable that raises an exception or returns something else, the problem is unchanged. Fewer than two points are rejected.", "quantifier": "for all rules, bounds, numbers of points, factories, problems, splines and weight matrices", "why_tests_cant": "the test integrates over the whole spline with 100 points and never looks at a problem after a failed call", "anchors": ["aslam_splines/include/aslam/backend/QuadraticIntegralError.hpp:35-115", "aslam_splines_python/src/QuadraticIntegralError.cpp:17-61"]}
{"id": "C112", "title": "Plotting a pose spline shows the whole curve", "statement": "plotPoseSpline evaluates the spline at times that begin with its first and end with its last time, strictly increase and are at most dt apart, so that it never fails and every time of the spline is at most dt after a plotted one. It draws the positions, or, inverted, the points that the poses map to the origin. A dt that is not positive is refused.", "quantifier": "for all pose splines over more than an instant, parametrisations by rotations, and distances", "why_tests_cant": "there is no test of this function; whether the number of steps fits depends on the ratio of the interval to dt, for all real ratios", "anchors": ["bsplines_python/python/bsplines/plotPoseSpline.py:1-12", "bsplines_python/src/BSplinePosePython.cpp:87-126"]}
{"id": "C113", "title": "Fitting a manifold spline again improves it", "statement": "A Euclidean manifold spline that has been built, extended and fitted any number of times can be fitted again: the fit succeeds, never increases the cost, changes the curve only on intervals near the new data, and keeps every curve through the points a curve through the points. The cost of the result does not depend on the solver, on dense or sparse matrices or on computing vertices or offsets, stays the same when the fit is repeated, is at most as large when fewer vertices are fixed; a larger weight gives less bending and a larger distance from the points.", "quantifier": "for all orders, dimensions, histories of calls and fits, data, weights, numbers of fixed vertices and solvers of semidefinite systems", "why_tests_cant": "a history is an arbitrarily long sequence of calls, and the costs of two results are compared for all data", "anchors": ["bsplines/include/bsplines/implementation/BSplineFitterImpl.hpp: fitSpline, calcFittedControlVertices", "bsplines/include/bsplines/BSplineFitter.hpp"]}
{"id": "C114", "title": "The tutorial problem determines its variables", "statement": "The error terms of the tutorial problem determine the variables handed to the optimiser: two states of the variables with the same errors in all terms are equal. In particular, without noise only the true wall and the true motion leave no error.", "quantifier": "for every number of steps, all random numbers, all vertices and wall positions", "why_tests_cant": "the tutorial has no test of its result, and a variable without influence on any term cannot be seen in the printed positions, which end one step before the spline does", "anchors": ["aslam_backend_bsplines_tutorial/src/exampleBST.cpp:84-129", "aslam_backend_bsplines_tutorial/src/ErrorTermMotionBST.cpp", "aslam_backend_bsplines_tutorial/src/ErrorTermPriorBST.cpp"]}
{"id": "C115", "title": "A Gauss-Newton step minimises the motion error", "statement": "With a positive semidefinite symmetric weight the equations made of the Hessian (each pair of blocks completed from the half it is stored in) and the right hand side that a motion error adds have a solution whichever variables are active and whatever other terms have been accumulated. The solutions are exactly the changes of the active variables that reach the smallest motion error. After one step the motion error adds nothing to the right hand side of an active variable, and it is zero if all variables are active. With all variables active and a positive definite weight on a derivative there is always a second solution, which moves the whole curve by a constant.", "quantifier": "for all splines, orders, dimensions, symmetric semidefinite weights, derivative orders below 2^31, current coefficients, activity patterns, placements of the blocks, accumulated terms and changes of the variables", "why_tests_cant": "the tests compare single values; the claim quantifies over all activity patterns and compares with all other changes of the variables", "anchors": ["aslam_splines/include/aslam/backend/implementation/BSplineMotionError.hpp:8-181", "aslam_splines/include/aslam/backend/BSplineMotionError.hpp"]}
{"id": "C116", "title": "A fit with the penalty at the knots is determined by its data", "statement": "With a weight that is not zero initSpline2, which penalises the second derivative at the knots only, has one result only: it does not depend on the solver, on the content of the spline before, or on the order of observations at the same time. It depends on the data as it should: a linear map of the values (a rotation, a change of units, a projection to some components) maps the coefficients, and adding a line to the data adds this line to the curve with its derivatives.", "quantifier": "for all orders, dimensions, data, numbers of segments, weights, solvers, linear maps and lines", "why_tests_cant": "the tests run one solver on a few data sets; the claim compares all solvers and all maps of all data, and quantifies over all splines over the knots", "anchors": ["bsplines/src/BSpline.cpp:762-845"]}
{"id": "C117", "title": "When the data determine the result of fitting a manifold spline again", "statement": "A fit of a Euclidean manifold spline has exactly one best result if and only if only the zero change of the free vertices leaves the values at all weighted data times and, with a regularisation, the straightness unchanged. Without a regularisation, and for order two always, this holds exactly if each free vertex has its own weighted data time strictly inside its support, in order; with a regularisation and from order three on two different weighted times suffice. Then the result does not depend on the solver, the matrices, offsets or the previous values of the free vertices, fitting again changes nothing, points on a curve with the same fixed vertices give back this curve, and the result is linear in points and fixed vertices. Always, results for other points differ at the data times at most as much as the points.", "quantifier": "for all histories of calls and fits, orders, dimensions, data, weights, numbers of fixed vertices and solvers of semidefinite systems", "why_tests_cant": "the condition on the times is an equivalence over all data; the results compare all solvers, starts and curves", "anchors": ["bsplines/include/bsplines/implementation/BSplineFitterImpl.hpp: fitSpline, calcFittedControlVertices", "bsplines/include/bsplines/BSplineFitter.hpp"]}
{"id": "C118", "title": "When a fit with a regularisation meets its data", "statement": "With a positive weight the curve that a regularised fit returns goes through all its data if and only if the data lie on one line, for order two on a constant; so does initSpline2 with a weight that is not zero for orders three and four. The penalty of the result is zero exactly if the curve is one line (order two: a constant) on the whole valid interval. A larger weight gives a curve that bends strictly less and is strictly farther from the data, unless the smoother curve is straight; it exchanges misfit for penalty at a rate between the two weights. If the result is straight for one positive weight it is straight for all of them and has the smallest misfit of all splines over the knots.", "quantifier": "for all data, dimensions, orders from two on, numbers of segments or distinct given knots, weights and solvers of semidefinite systems", "why_tests_cant": "an equivalence over all data and weights: an arbitrarily small weight suffices to miss data that are not on a line, by less than any test tolerance", "anchors": ["bsplines/src/BSpline.cpp:762-1164 initSpline2, initSplineSparse, initSplineSparseKnots, initSpline3"]}
{"id": "C119", "title": "A fit with a growing regularisation approaches the best line, with a falling one the fit without", "statement": "Over fixed knots and data the curve that a regularised fit returns differs at each valid time from the line through its own ends (order two: from its first value) by at most a constant over the square root of the weight, and from the least squares line through the data (order two: from the least squares constant) likewise, if the data have two different times; this line then exists and is unique. With falling weight the misfit exceeds the least one by at most the weight times the penalty of the fit without regularisation, so does the sum of the squared distances of the two curves at the data times, and if the data determine the curve (interlaced with distinct knots) its value and all derivatives at each valid time differ by at most a constant times the square root of the weight. The results of initSpline2 for orders three and four differ from the least squares line by at most a constant over the absolute value of the weight, which is squared there. With falling weight the misfit of its results exceeds the least one by at most the squared weight times the penalty of the result with weight zero, and for data that determine the curve the value and all derivatives differ from those of this result by at most a constant times the weight, for all orders from two on. From order three on the uniform fit of a manifold spline in Euclidean space approaches the least squares line like the fits with a penalty integral.", "quantifier": "for all data, dimensions, orders from two on, distinct knots, valid times, positive weights and solvers of semidefinite systems; the constant depends on knots, data and time only", "why_tests_cant": "a limit: a rate over all weights, where a test sees single weights and a wrong limit can be as close as its tolerance", "anchors": ["bsplines/src/BSpline.cpp:762-1164 initSpline2, initSplineSparse, initSplineSparseKnots, initSpline3", "bsplines/include/bsplines/implementation/BSplineFitterImpl.hpp:21-34 initUniformSpline"]}
{"id": "C120", "title": "The whole fitted curve depends continuously on the data", "statement": "If the values of the data change, the value and every derivative of the curve that a regularised fit returns change at each valid time by at most a constant times the distance of the values. The constant does not depend on the values. One constant serves all weights from a given positive one on if the data have two different times, and all weights including zero if the data times determine the curve (interlaced with distinct knots).", "quantifier": "for all pairs of data with the same times, dimensions, orders from two on, distinct knots, valid times, orders of derivatives, weights and solvers of semidefinite systems", "why_tests_cant": "a bound that holds for all values and weights at once; a test sees single perturbations, and whether a bound for arbitrarily small or large weights exists cannot be sampled", "anchors": ["bsplines/src/BSpline.cpp:762-1164 initSplineSparse, initSplineSparseKnots, initSpline3"]}
