# Formal model of Ubitrack/utcore in Lean 4

Source: `/repo/src` (C++). The code is read as text; nothing is compiled or run.
Lean project: `/verif/lean`. Property list: `properties.jsonl`. Status: `MANIFEST.json`.
Mutation log: `seeded/LOG.jsonl`.

## Layout

* `Verif/Model/*.lean`  - the model. One Lean definition per C++ function. Each carries
  a comment with file and lines, and says where it simplifies.
* `Verif/Spec/*.lean`   - small specifications that do not mention the model.
* `Verif/Proofs/*.lean` - helper lemmas.
* `Verif/Props/*.lean`  - the property theorems, named `Cnn_...`, with non-vacuity examples.

## Modelling conventions

* **Numbers.** `double`/`float` are idealised: algebraic code is modelled over an arbitrary
  field or commutative ring, code that uses `sqrt`, `sin`, `acos` over the reals. Rounding, NaN
  and infinities are not modelled. A division whose divisor can be zero is either a hypothesis
  of the theorem or an explicit outcome of the model, never Lean's silent `x / 0 = 0`.
* **Integers.** `size_t` loop counters are `Nat`. Where wrap-around is observable (timestamps,
  32-bit lengths, unsigned differences) the model uses `BitVec`/`UInt` or explicit `% 2^n`.
* **Undefined behaviour** (out-of-bounds access, null dereference, reading an uninitialised
  entry) is a distinct outcome (`Outcome.ub`, `none`, ...), not a default value.
* **Exceptions** are a distinct outcome (`Outcome.throw`, `Except`).
* **Mutation** through references becomes a returned value.
* **External code** (LAPACK, Boost archives, msgpack, file system, random numbers, clocks, user
  functors) is a parameter. What is assumed about it is stated as a hypothesis of the theorem.

## Trusted base

* Lean 4.33.0 kernel.
* Axioms: at most `propext`, `Classical.choice`, `Quot.sound` (checked with `#print axioms`).
  No own axioms, no `sorry`, no `native_decide`, no `bv_decide`.
* Mathlib, as checked by the same kernel.
* The reading of the C++ source that produced `Verif/Model`.
* The external routines meet the contracts of the next section.

## External routines

LAPACK/ATLAS calls are parameters of the model. What a theorem assumes of them is one of the following predicates, and
every predicate is proved to be satisfiable (so that no theorem is about an empty set of implementations).

| contract | file | stands for | satisfiable by |
|----------|------|------------|----------------|
| `SymmetricEigensolver` | Spec/Solver | `syev` | `exists_symmetricEigensolver` |
| `LeastSquaresSolver` | Spec/Solver | `gels` | `exists_leastSquaresSolver` |
| `SingularValueSolver`, `ThinSVD`, `SquareSVD` | Spec/Solver, Spec/Factorisation, Spec/Epipolar | `gesvd` | `exists_singularValueSolver`, `exists_thinSVD`, `exists_squareSVD` |
| `LUFactorisation`, `LUInverse` | Spec/Factorisation | `getrf`, `getri` | `exists_luFactorisation`, `exists_luInverse` |
| `IsRQ` | Props/ProjectionMatrix | `gerqf`, `orgrq` | example beside C59 |

User functors (RANSAC, Levenberg-Marquardt, downhill simplex), random draws, clocks, file contents and the linear solver
of Levenberg-Marquardt are arbitrary values or functions.

## Plan per property

| id | modelled | proof |
|----|----------|-------|
| C01, C02 | quaternion product, conjugate, rotation formula | polynomial identities (`ring`) over a commutative ring |
| C03 | `toMatrix` as a 3x3 Mathlib matrix | entrywise identities, orthogonality and determinant modulo `|q|^2=1` |
| C04 | `Quaternion(Matrix)` with all four branches, over the reals | case analysis, square roots of the trace expressions |
| C05 | `toLogarithm`, `fromLogarithm` over the reals with the cutoff | trigonometric identities, `arccos` lemmas |
| C06 | `slerp` over the reals | trigonometric identities |
| C07 | `negateIfCloser` | order reasoning |
| C08-C10 | `Pose` operations | from C01-C03, `ring` |
| C11 | heap of payloads plus handles, operation type, step function | invariant/refinement by induction over operation lists |
| C12, C13 | `TimestampSync` state machine over the rationals/reals with a rounding parameter | invariant by induction over events |
| C14 | `TimestampSyncLS` state machine | invariant by induction |
| C15, C16 | byte streams, universe of types, reader and writer with overrun outcome | induction over the type universe and lists |
| C17 | msgpack object tree, `pack`/`convert` per type | round-trip lemmas; matrix shape refutation with witness, partial theorem for square shapes |
| C18 | character-level writer/reader of the text archive | induction over tokens and digits |
| C19 | file outcome as parameter, target variable as state | decision logic, refutation for the Measurement overload |
| C20 | `Munkres` steps literally, including the shadowed variables | soundness of a returned assignment, refutations of termination/optimality |
| C21, C22 | `ransac` loop with arbitrary functors and random subsets | loop invariants by induction |
| C23 | `levenbergMarquardt` loop with arbitrary solver outcomes | loop invariant, fuel-free termination bound |
| C24 | `downhillSimplex` step | invariant by induction |
| C25 | `k_means`, `copy_probability` | argmin invariant, membership by induction |
| C26, C27 | averages and correlation over lists | `List.Perm`, Cauchy-Schwarz |
| C28, C29 | matrices of arbitrary finite dimension | Mathlib matrix algebra, `PosSemidef` |
| C30, C31 | distortion, projection and Jacobians | field identities, `HasDerivAt` |
| C32, C33 | Jacobians | `HasDerivAt`, polynomial identities |
| C34-C37 | geometry functors | polynomial identities over fields |
| C38 | Horn's matrix, eigensolver as hypothesis | quadratic-form identity, optimality |
| C39-C42 | assembled linear systems | algebra |
| C43, C44 | motion model | binomial theorem; index arithmetic |
| C45 | 64-bit timestamp subtraction | `BitVec`; refutation for `RotationOnlyKF::predict` |
| C46 | list comprehension of pairs | induction |
| C47 | timer state machine | induction over histories |
| C48 | fixed formulae | `ring` |
| C49 | template recursions over raw arrays, for every size | induction; the accumulation is one update of the array |
| C50 | iterator state machines | induction; refutation for `index_iterator` |
| C51 | `projectWithDistortion` and `lensDistort` | field identities; refutation for right-handed cameras with tangential coefficients |
| C52 | function objects with their Jacobians | `HasFDerivAt` of the evaluated function; refutations with witnesses |
| C53 | motion-model time updates of every order | binomial sums, derivatives |
| C54 | expression trees of composed functions | structural induction, chain rule |
| C55 | projection functions for pose optimisation | derivative of the projected point |
| C56 | bundle adjustment functor: layout, residual, Jacobian, write-back | index arithmetic over an arbitrary number of cameras and points, derivatives |
| C57 | Kalman filters as state machines | invariant by induction over histories |
| C58 | refinement functors plus Levenberg-Marquardt | from C23, derivatives; refutations |
| C59 | `decomposeProjection` | RQ contract, matrix algebra; refutation |
| C60 | determinant, inverse, pseudo-inverse | LAPACK contracts, matrix algebra |
| C61 | eight-point algorithm, fundamental matrix from poses | null spaces, SVD contract |
| C62 | relative pose from a fundamental matrix | classification of the four candidates, triangulation signs |
| C63 | all conversions of RotationCast.h, the constructors and `toAxisAngle` of Quaternion.h | Rodrigues' formula as specification; half-angle identities; sign analysis for matrices |
| C64 | both `getEulerAngles` | nine matrix entries from five equations; pole quaternion and distance bound |
| C65 | `estimate_gaussian` (three versions) | folds are sums; covariance symmetric by the fold, semidefinite as a sum of squares |
| C66 | `Probability`, `log_likelihood`, `expectation_maximization` | Jensen's inequality for the responsibilities, `log t <= t - 1` for the weights, `log det + N <= trace` of a positive definite matrix by its eigenvalues for the distributions; induction over the passes |
| C67 | `MahalanobisDistance` | matrix algebra; a root of the inverse covariance turns the distance into a Euclidean one |
| C68 | Tsai-Lenz hand-eye calibration (TsaiLenz.cpp) | the quaternion equation of conjugate rotations; both systems have independent columns and the truth as exact solution; least-squares contract |
| C69 | selection of pose pairs (DataSelection.h, DataSelection.cpp), random draws as parameters | rotation vectors of unit quaternions; invariants of the loops over labelled pairs; the clustering of C25 |
| C70 | OnlineRotHec.cpp on the Kalman update of C29 | information form of the update; induction over the history gives the least-squares estimate; error bound by Cauchy-Schwarz; limit |
| C71 | RotationHecKalmanFilter.cpp on the Kalman update of C29 and the functions of C52, C54 | information form: the updated state is never zero; the truth is in the kernel of the measurement function |
| C72 | BackwardPropagation.h, all three versions; `gesvd` and `syev` are parameters with the contracts of Spec/Factorisation and Spec/Solver | singular value calculus; comparison with the pseudo-inverse of C60; concrete refutations for every admissible factorisation |
| C73 | CovarianceEstimation.h and ErrorEstimation.h on C72, C32 and C38 | derivative by C32; kernel of the Jacobian and collinearity; scaling of residual and Jacobian |
| C74 | Vector.h, VectorFunctions.h (on the arithmetic of C49), Matrix.h | the loop of `operator<` against the lexicographic order; Euclidean space of Mathlib; conjugation by the mirror |
| C75 | CameraIntrinsics.h; an archive is the list of written items | induction over the loops of `serialize`; Mathlib's angle between vectors for the rays |
| C76 | GaussNewton.h, DiscreteJacobianApproximation.h; LAPACK `gels` by its contract | normal equations; derivative of the squared error; slope limit for the differences; loop invariant: the test input is restored |
| C77 | RotationVelocity.h on the exponential and logarithm of C05 | quaternion identities; addition theorems |
| C78 | PlanarPoseEstimation.cpp l.60-330, ProjectivePoseNormalize.h; singular value decomposition, homography and projection matrix by contract (C25, C41) | uniqueness of homography and projection; algebra of the polar factor; case analysis |
| C79 | BundleAdjustment.cpp l.221-337 on top of the models of C56 and C23; linear solvers arbitrary | invariant of the optimiser loop; re-indexing of the sum of squares; algebra of poses |
| C80 | SerialPort.h l.62-114, SerialPort.cpp l.246-383 (POSIX half); descriptor table and terminal attributes as state, answers of the system as arguments | induction over histories of events |
| C81 | NonPlanarPoseEstimation.cpp l.70-264 over the rotation estimate of C38; eigensolver by contract, inverse of a regular matrix exact | projection onto lines; least squares for the translation; monotonicity of a pass from the optimality of the rotation; induction over passes |
| C82 | MultipleCameraPoseOptimization.cpp l.58-275 over the expressions of C54 and the optimiser of C23; pose estimation from one camera and linear solvers left open | residual of the optimiser as a sum over cameras and points; shift of indices for bundles; invariants of the optimiser |
| C83 | Undistortion.h l.200-224, LensDistortion.cpp l.104-136 over the optimiser of C23 and the distortion of C30/C31; PointUndistortion.h l.70-101 | residual of the optimiser as a distance; invariant of the optimiser; contraction estimate for the distance to the true point |
| C84 | ImageLookup.h l.57-119 over a flat memory with checked reads | sum of weights of all pixels (tent functions) collapses to four neighbours; arithmetic of rounding |
| C85 | ConicCovariance.h l.73-128 over the pseudo-inverse of C60 | the loop as a sum; derivative of the polynomial; algebra of Moore-Penrose inverses |
| C86 | Timestamp.cpp l.100-156, OS.cpp l.65-88 (not the branches for Windows) with the calendar functions of the C library specified by a Gregorian calendar | arithmetic of digits; fixed positions in the text; lexicographic order of padded numbers |
| C87 | GlobFiles.cpp l.39-104 over an abstract file system; regular expressions by hand for the four known patterns | the loop as a filter; uniqueness of sorted permutations |
| C88 | Random/Scalar.h, Vector.h, Matrix.h, Rotation.h, with the generators of boost as sequences | polar coordinates in both planes of the four-dimensional space show that the volume of a cone is proportional to the probability of its base; volume is invariant |
| C89 | reconstruct3DPoints with the models of the assignment solver (C20) and of the triangulation (C41); the result is a relation because the solver need not end | unique row minima make first fit find the right pairing; then the theorems of C20 and C41 |
| C90 | the tree of category objects with cached priorities as a heap, all calls of the interface as operations on it; initLogging as a list of calls; filters as their decisions | invariant of the heap over all histories, closed form of the recursive update, refinement to a specification that only knows what has been set for each name |
| C91 | the reader of patterns with the stream operations it uses, all components, widths | every pattern that is written from a list of items is read back with its meaning, by induction over the items; loop invariant for the parts of the category |
| C92 | EncodeString, character references, ReadText, attribute and text reading, with positions behind the end of the text as a distinct fault | by induction over the value in chunks of one character each; numerals by induction over their digits |
| C93 | printing of all node types, the file level, the whole recursive parser, line break normalization | mutual induction over the tree for what is printed at every indentation and what is read from it; the number of steps of the model is bounded by the length of the file (`Props/XmlEnd.lean`) |
| C94 | the position counter, the whole parser | decreasing measure for every mutually recursive function of the parser; loop invariant of the counter over all UTF-8 texts |
| C95 | optimizePose with the whole loop of the optimiser, where infinite and NaN residuals are distinct outcomes | invariant over the passes (unit quaternion, finite images, residual in step with the parameters); exact poses by the uniqueness of the solution of a positive definite system; the refutation by one exactly solved pass |
| C96 | singleCameraPoseError, multipleCameraPoseError, the whole of computePose with its residual and covariance | the Jacobians are those of C55, the pseudo-inverse is that of C72; linearity in the variance; exact scenes by C78 and C95 |
| C97 | load with getline's buffer, substitution, split, trim, the loop over the sorted map, appenders, categories as calls of the model of C90, initLogging | line grammar by uniqueness of trimmed parts; sorted-map invariant for the first assignment; order of keys for the grouping of appenders; frame argument over the categories; default configuration by C90 |
| C98 | disk as map from names to lists of messages, system calls with their effect, names built in a stream buffer with null characters, crash after any number of calls | prefix-of-calls induction over the renames (vacant target), suffix and size invariants over histories |
| C99 | stack of contexts with full texts per thread, copies, undefined behaviour as no result | refinement to stacks of words by an invariant on the full texts; nesting by induction over balanced histories |
| C100 | nodes in a heap with five pointers, edits as relations, undefined behaviour as no result | separation of the subtrees from a soundness invariant; frame theorems; invariant over histories |
| C101 | attribute lists, %d and %f formatting, reading by sscanf | refinement to a map with creation order by induction over histories; digits lemmas; rounding bound |
| C102 | grammar of the texts that stand for nodes, independent of the printers; the printer as a state passed through the traversal | mutual induction over the document, for reading and for normalising line breaks; printed text is in the grammar |
| C103 | the stream as its remaining characters and good(); the scan with a bound on its steps | mutual induction over the document for every place where a tag can be cut; the text that is taken is the text that C102 says is parsed |
| C104 | the stream as the text that is left, or failed; formatted extraction of words and numbers; the commands as calls on categories | induction over the commands of the file, with whatever follows them |
| C105 | buffer with its bounds, memmove, the loop over the packets; the address as four bytes | induction over the rounds of the loop |
| C106 | heap of category objects with lists of children, the object being one that is not in the map of names | simulation by an ordinary category whose name is longer than any name that occurs, then the theorems about categories (C90) |
| C107 | memory of buffers with deletion, streams with pointers into it, steps of a program with undefined behaviour as an outcome | induction over the steps with the pending buffer as invariant; messages of the specification by splitting the program at the ends |
| C108 | memory of filters with next pointers and deletion; outcome of pointer-following functions with undefined behaviour and unfinished computation | induction over chains; circles by an invariant of the pointers |
| C109 | relation for the loops over the nodes of the model of XML editing | induction over the index with the list of children, using the searches of C100 |
| C110 | functions on the event of the model of pattern layouts | cancellation at separators; induction over the events with splitting at line breaks |
| C111 | loop with a bound on the rounds, list of arguments usable once, queue as a list | unfolding of the rounds; induction over the history |
| C112 | `Pose.beq`, `Pose.bne` (Model/Pose, Model/PoseEquality) compare component by component; extensionality, uniqueness of the quaternion of a matrix up to sign (C04) and the group laws (C08). |
| C113 | the histories of C12, C13 and C14 (Model/TimestampSync, Model/TimestampSyncLS) | between the prediction and the time of receipt (C13); exact bounds of the first three updates for the refutation |

## Where the code does not have the property

Each line is a `..._refuted` theorem (a concrete witness in the model), or, if marked (read), a defect seen in the source
that is outside the modelled part.

* C16: the length of a ROS string is multiplied in 32 bits. C17: non-square matrices, dynamic vectors and invalid
  measurements do not round-trip. C18: blank characters and 2^32 values. C19: a failed read of a measurement invalidates
  the target.
* C20: the assignment solver does not terminate unless the first-fit matching on the row minima is perfect.
* C25: an empty cluster has a NaN centroid; a draw of exactly 0 takes a seed twice. C24: a zero start coordinate is never
  perturbed; with one parameter and equal values the lowest and the highest vertex coincide.
* C26: rotations are averaged with non-negative real parts, so two rotations close to each other on both sides of a half turn have the identity as average (C26_quat_near_halfturn_refuted).
* C32/C52/C53: the rotation Jacobian is not the derivative in radial direction; the second hand-eye Jacobian, the velocity
  integration (threshold `1e12`), the exponential map at zero, the norm in multi-row functions; `dt^2` instead of `dt^2/2`.
* C33: sign of the rotation block of the inverse; `invertMultiply` uses the Jacobians of the product; the covariance of a
  transformed uncertain point ignores the covariance of the point; additive conversion.
* C34: the centre of a parabola does not throw; axes of circles are NaN; axes swapped for equal coefficients; the mixed
  coefficient is halved in the eccentricity.
* C37: `TransformPoint` 4x4 times 4-vector uses entry (3,3) for (3,2) (PointTransformation.h l.181).
* C40: the signs of the quaternions of a hand-eye system are not aligned; the quadratic equation can degenerate.
* C42: `correctOrigin` ignores entry (1,0). C45: `RotationOnlyKF::predict` subtracts unsigned times.
* C47: a nested block of the same timer overwrites the code location. C50: `index_iterator::operator++` never advances past
  a match. C51: tangential distortion of right-handed cameras. C54: a parameter that occurs twice. C56: ragged observations.
* C58: third row of the 3D-3D Jacobian; 0/0 in the tool-tip Jacobian. C59: translation not rescaled; cameras with the origin behind them come back with another calibration matrix and rotation. C61: step size.
* C63: half turns from a matrix give a wrong quaternion, a NaN axis or the zero vector; the identity has a NaN axis; the axis
  of a small angle is not normalised. C64: the sign of the first angle at the pole with the second angle -90 degrees.
  C65: `estimate_gaussian_index` without a match. C66: the factor of the density and degenerate distributions.
* C68: a mounting that is a half turn is never returned; one half turn of the hand makes the result wrong.
* C69: `hemisphere_alignment` keeps the axis when it replaces the angle a by 2π - a, so the selected pair of an eye motion with negative scalar part consists of different rotations; `resetIndices` has `*itPose` for `++itPose` and keeps the first member of a cluster. The assertion in `updateComparisonPoses` has the wrong direction (not modelled). Pairs of empty clusters are not initialised.
* C70: half turns give wrong results, because the sign of a quaternion with scalar part zero is arbitrary.
* C71: `b.negateIfCloser( a )` compares all four components, but `ax = xb` needs equal scalar parts; for turns by more than 90 degrees an exact pair can move the state away from the mounting.
* C72: `backwardPropagationDiagonal` loops over the size of the result when it divides the rows of the Jacobian by the standard deviations, so measurements beyond the number of parameters count with variance one. `backwardPropagation` has the same bound and multiplies by the matrix of eigenvectors (columns) instead of its transpose.
* C73: `estimatePose6DResidual` is a third of the mean distance, not a mean squared distance, and is used as a variance; the covariance depends on the unit of length.
* C74: `Vector::operator<` is no order when a component is NaN (cycle of three vectors); `linearInterpolate` stores its weights in the element type, so it returns zero for integral vectors.
* C75: the constructor for three radial parameters sets `radial_size` to 2, so saving drops the third parameter and changes the type of the saved object; the fish-eye constructor leaves `radial_params` 4 and 5 uninitialised; loading over a used object keeps the parameters beyond the new size; the general constructor ignores `size`; `angleDiagonal` divides by the norm of both focal lengths and is too small for every camera.
* C76: `gaussNewton` has no step control: for x³ - 2x + 2 = 0 it cycles between 0 and 1 and raises the error every second iteration. Its documented return value (the residual) does not exist.
* C77: `integrate` drops angles up to 1e-12, so a motion integrated in many short intervals stands still; the error is at most 5e-13 for each step (C77_steps).
* C78: `computePose` drops a common z coordinate of the points if it is not zero: the pose returned is off by that offset.
* C78: `computePose` returns a pose behind the camera for a plane at positive z.
* C78: `computePose` rejects points whose first three span an angle with cosine above 0.8, although they are not on a line.
* C78: The translation from a projection matrix is divided by the product of three singular values, so a camera matrix that is scaled by k gives k squared times the translation.
* C78: `ProjectivePoseNormalize` scales rotation and translation by the same factor, while the rotation matrix is quadratic in the quaternion, so the images change.
* C79: `simpleBundleAdjustment` reads or leaves uninitialised memory if any camera has no observation of some point; the numbers of observations are not checked.
* C79: `simpleBundleAdjustment` normalises the quaternions only after the optimisation, so the error that was minimised is not the error of the poses that are returned: with one camera, one point and an exact solver the error grows from 20.25 to more than 100 (`C79_worse_refuted`).
* C79: src/utAlgorithm/Function/BundleAdjustment.h is not modelled: the class it works on is not part of the code.
* C80: `SerialPort::open` calls `cfmakeraw` after setting data bits and parity, which sets eight bits and no parity: the settings of the constructor have no effect.
* C80: `SerialPort::open` leaks the descriptor if reading or setting the attributes fails.
* C80: `SerialPort::close` does not reset `m_portOpen`: the port cannot be opened again, and the destructor closes the descriptor a second time, by then possibly that of another file.
* C80: `SerialPort::send` converts the -1 of a failed write to unsigned long.
* C80: `SerialPort::bytesOnRead` does not look at the result of `ioctl`; if it fails an uninitialised variable is returned.
* C80: `SerialPort::sendBreak` and `flush` use an uninitialised descriptor if the port was never opened.
* C82: without an initial pose the optimisation starts at the camera pose times the pose relative to the camera; the objective (camera pose maps world to camera) needs the inverse of the camera pose. With exact data the start is wrong unless the camera pose is the identity (`C82_start_refuted`)
* C82: input without cameras passes the consistency check and reads the minimum of an empty vector (`C82_no_camera_refuted`); a negative minimum of observations means that no number is enough (`C82_negative_refuted`)
* C82: an empty bundle at the beginning of the list gets the pose of all points, because the last index -1 stands for all points (`C82_empty_bundle_refuted`)
* C82: the weights are not used as weights: only zero or not matters (`C82_ignored`); the comment in the code speaks of a pose weight 1.0, the value is the residual
* C83: undistortion is not an inverse where distortion is not injective (`C83_inverse_refuted`)
* C83: `Math::Geometry::PointUndistortion` applies the distortion once more instead of removing it, and takes the lower right element of the camera matrix to be -1 (`C83_point_distorts`, `C83_point_refuted`)
* C83: Undistortion.h l.71 reads `cam.tangential.radial_params`, which is no member: the constructor cannot be instantiated
* C84: the last row and column of the image read as zero (`C84_border_refuted`), and the derivative is zero one row and column before that (`C84_slope_border_refuted`)
* C84: coordinates whose floor does not fit into `int` are undefined behaviour (`C84_overflow_refuted`)
* C84: the derivative is not the derivative of the interpolated value (`C84_derivative_refuted`), as the comment in the code (Sobel) suggests; only the first row of the destination is written (`C84_rows_refuted`)
* C85: the constant named `stdDev` is used as the variance, so the covariance is 10000 times that of the named standard deviation (`C85_noise_refuted`)
* C85: the coefficients are elements of a symmetric matrix (`2 b x y`), unlike Conic.h (`b x y`) (`C85_convention_refuted`)
* C85: points where the conic has no gradient, and the zero conic, divide by zero (`C85_defined`)
* C86: `sleep( ms, ns )` passes nanoseconds of a second or more to `nanosleep`, which refuses them: the call returns at once (`C86_sleep_refuted`)
* C86: the header shows the day with a zero (`Mar 02`), `asctime_r` prints a space (example beside `C86_long`)
* C87: the path of an existing file is returned whatever its name and the kind, also when directories are searched (`C87_file_refuted`)
* C87: with a non-empty list nothing found is no error (`C87_nothing_refuted`)
* C88: limits given as vectors must be ordered, unlike limits given as numbers (`C88_vector_order_refuted`)
* C88: normally distributed vectors with a covariance read `m_sigma` without initialisation (`C88_covariance_refuted`)
* C88: `static boost::mt19937 RNG` in a header: all source files draw the same numbers (`C88_independent_refuted`)
* C89: different non-zero numbers of points: uninitialised memory (`C89_unequal_refuted`)
* C89: two exactly seen points in one plane with the cameras are paired in the order of the lists, and come back as other points, one behind the cameras (`C89_same_plane_refuted`)
* C89: a small measurement error makes the call run for ever (`C89_noise_refuted`)
* C90: `initLogging()` twice: two appenders for standard error (`C90_twice_refuted`)
* C90: `setPriority` beyond `NOTSET` is accepted and cuts the category off from later changes (`C90_beyond_notset_refuted`)
* C90: creation in one thread and `setPriority` of the parent in another can leave a stale cached priority (`C90_interleaved_refuted`)
* C90: `Exception` without a file name while debugging is enabled for exceptions writes a null pointer to a stream (`C90_exception_refuted`)
* C91: a width of `%n` or `%%` goes to the next specifier (`C91_width_carried_refuted`)
* C91: text in braces after `%%` is lost (`C91_percent_brace_refuted`)
* C91: `%c{0}`, `%c{-2}`, `%c{full}`: every log call throws (`C91_precision_refuted`)
* C91: `%c{n}` of names that begin with a dot (`C91_leading_dot_refuted`)
* C91: a pattern that is not accepted deletes the former one (`C91_error_refuted`)
* C91: times of 100 characters or more (`C91_time_refuted`)
* C92: values that contain "&#x" are not read back, and put markup into the file (`C92_reference_refuted`, `C92_escape_refuted`)
* C92: numbers in references are taken modulo 2^32 (`C92_wrap_refuted`)
* C92: '&' without a known reference disappears (`C92_ampersand_refuted`)
* C92: incomplete UTF-8 characters take the quote with them (`C92_incomplete_refuted`)
* C93: a doubled attribute ends the document silently (`C93_duplicate_refuted`)
* C93: text after the last node ends the document silently (`C93_trailing_refuted`)
* C93: a second closing tag is taken as an unknown node (`C93_closed_refuted`)
* C93: blank texts are lost, neighbouring texts are joined (`C93_texts_refuted`)
* C93: comments and CDATA are written without a check (`C93_raw_refuted`)
* C94: an error report about a file that ends with EF and one more byte never returns (`C94_hang_refuted`)
* C94: unterminated comments, CDATA, values and characters are read beyond the end (`C94_outside_refuted`)
* C95: a step that moves a point into the centre of the camera makes pose and residual NaN, and no later pass recovers (`C95_nan_refuted`)
* C96: computePose returns 2n times the covariance that belongs to its residual (`C96_variance_refuted`)
* C97: a line of 256 or more characters, even a comment, silently ends the file (`C97_long_line_refuted`)
* C97: appender names with characters before the dot in the order of characters (such as `-`) can make a valid file be refused (`C97_names_refuted`)
* C97: `rootCategory` without a priority throws `std::invalid_argument` through an exception specification and ends the program (`C97_root_priority_refuted`)
* C97: properties that are saved and loaded again lose what follows a `#` in a value (such values come from the environment) (`C97_save_refuted`)
* C17: converting a stored measurement of a number with `as` gives its time stamp as the value (`C17_as_number_refuted`)
* C97: after a failure midway the earlier settings stay and messages can be lost (`C97_half_configured_refuted`)
* C98: with 0 backups and appending the file is reopened, not emptied, so it grows without bound (`C98_no_backups_refuted`)
* C98: a crash in the middle of a roll-over leaves a gap in the numbers, and the next roll-over throws away a backup although there is room (`C98_kept_crash_refuted`)
* C98: a smaller number of backups leaves the older ones on the disk (`C98_fewer_backups_refuted`)
* C99: `NDC::pop` without a context is documented to return an empty string but calls `back()` on an empty vector (`C99_pop_refuted`)
* C100: `LinkEndChild` asserts `node->parent == 0 || node->parent == this`; in the second case the node becomes its own successor and going through the children does not end (`C100_link_again_refuted`)
* C100: `LinkEndChild` of a root below one of its own descendants passes the assertions and makes a cycle (`C100_link_below_refuted`)
* C100: `ReplaceChild` inserts documents into elements, which the other functions refuse with an error (`C100_document_refuted`)
* C101: `TiXmlAttribute::Next` takes an attribute with empty name and value for the end of the list: attributes behind it are neither visited nor copied nor printed (`C101_visited_refuted`)
* C101: `SetDoubleAttribute` writes six decimals: 2^-30 is read back as 0 (`C101_double_refuted`)
* C101: `SetDoubleAttribute` cuts the text after 255 characters: 2^1000 is read back as less than 10^255 (`C101_double_large_refuted`)
* C101: `QueryIntValue` is documented to return `TIXML_WRONG_TYPE` if the value is not an integer, but accepts `12.7 pixels` as 12 (`C101_wrong_type_refuted`)
* C101: `SetName` can give two attributes of an element the same name (`C101_rename_refuted`)
* C102: an end tag with white space before its '>' (`</a >`), which XML allows, is an error, and what follows is lost (`C102_end_tag_refuted`)
* C102: `TiXmlPrinter` and `operator<<` do not write the byte order mark of a document (`C102_mark_refuted`)
* C103: a comment that begins with '>' or '->' before the element ends `operator>>` in its middle, and the parser reads beyond the end of the string (`C103_comment_refuted`); inside an element it can take the next document with it (`C103_inside_refuted`)
* C103: a '>' in the declaration ends `operator>>`; the element is lost (`C103_declaration_refuted`)
* C103: what stands behind the element stays in the stream although `operator<<` has written it with the document (`C103_behind_refuted`)
* C103: an unknown tag such as `< /x>` ends an element for `operator>>` but not for the parser (`C103_unknown_refuted`)
* C103: a null character in an element keeps `operator>>` in an endless loop (`C103_null_refuted`)
* C104: a facility left out for `syslog` (the code has a default, `LOG_USER`) leaves the stream failed: everything behind it in the file is silently ignored, and a pattern of the same command is replaced by an empty one (`C104_facility_refuted`)
* C104: a pattern of more than 999 characters is cut and the rest of the file silently ignored (`C104_long_pattern_refuted`)
* C104: without a pattern, the next line of the file is the pattern and not a command (`C104_no_pattern_refuted`)
* C104: a file that ends behind `appender name` or `appender name layout` is accepted (`C104_incomplete_refuted`)
* C104: `remotesyslog` takes the code of the facility, `syslog` its number (`C104_remote_refuted`)
* C105: `_ipAddr = *(pent->h_addr)` keeps only the first byte of the address of the host: messages for 127.0.0.1 go to 127.0.0.0, those for 192.168.1.1 to 192.255.255.255 (`C105_address_refuted`)
* C105: if the host cannot be resolved, messages are sent to file descriptor 0 (`C105_unresolved_refuted`)
* C105: the name for the system log is never sent to a remote host (`C105_name_refuted`)
* C105: without a facility in the property file, -1 (for the default) is multiplied by 8 first: packets start with `<-2>` and the like (`C105_default_refuted`)
* C106: the priority set for the category of the same name is ignored by the object: it inherits from the category above (`C106_own_priority_refuted`)
* C106: an object for the root category has priority `NOTSET` and logs everything (`C106_root_refuted`)
* C106: the destructor does not remove the object from the children of the category above: setting a priority there, or reconfiguring, then uses a destroyed object (`C106_destroyed_refuted`)
* C107: `eol`, `left` and `width` on a stream whose priority is not enabled dereference a null pointer: `category.debugStream() << "x" << eol` is undefined behaviour unless debugging is on (`C107_disabled_refuted`)
* C107: `eol` and `left` at the start of a message dereference a null pointer (`C107_empty_refuted`)
* C107: a copy of a `CategoryStream` shares its buffer: double deletion (`C107_copy_refuted`)
* C108: appending a filter that is in the chain already, also to itself, closes a circle: the next neutral decision never returns (`C108_circle_refuted`)
* C108: `setChainedFilter` with a filter from further down the same chain deletes it and keeps the pointer (`C108_shorten_refuted`)
* C108: a filter given to two appenders is deleted twice (`C108_shared_refuted`)
* C109: a negative index of `TiXmlHandle::Child` leads to the first child (`C109_negative_refuted`)
* C110: with both layouts a message can forge the lines of other events (`C110_forged_refuted`)
* C110: priorities between two levels are all written as UNKNOWN by the layouts (`C110_priority_refuted`)
* C111: `StringUtil::vform` uses its `va_list` again for messages of 1024 characters or more (`C111_long_refuted`)
* C14: after more than ten events with one and the same sensor time the least-squares synchronisation divides zero by zero (`C14_same_time_refuted`)
* C113: after a burst of events the returned times run backwards although sensor times and times of receipt increase (`C113_backwards_refuted`, `C113_least_squares_refuted`)
* (read) `RotationCast` to a 4x4 matrix leaves the last row and column uninitialised; `Undistortion.h` l.71 `cam.tangential.radial_params`; `CameraIntrinsics.h` l.158 `radial_size` 2 for OPENCV_3_2 and
  l.179-203 uninitialised or ignored members; `DownhillSimplex` undeclared `VType`; ROS `maxSerializationLength` calls a
  function that does not exist; network bundle adjustment with no body pose underflows; `DataSelection` resets; the LAPACK
  status is not checked by `invert_matrix`, the Kalman filters and the DLT functions; `getRMS` style residuals documented as
  root mean squares are sums of norms divided by 3n; BLAS products with a result that aliases an operand.

## Not modelled

* Internals of LAPACK, BLAS, Boost serialization and msgpack; floating-point rounding; system calls beyond the contracts above.
* Memory models of threads: where threads matter (contexts, mutexes, measurements), the models interleave whole critical sections.
* Tracing macros, Windows-only appenders and the Windows parts of the threading classes, `snprintf.c` (only compiled where the C library has none).
* `UnscentedTransform.h` is not valid C++ and not included anywhere; wrappers without own logic (`Correction.cpp`, `BaseSerializer`, `TypeToVector.h`).
