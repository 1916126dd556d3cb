{"id": "C01", "title": "Rotating by a unit quaternion is a rigid motion", "statement": "For every unit quaternion q, q*v preserves dot products (hence lengths and angles) and cross products (hence handedness) of all 3-vectors, and equals the sandwich product q v ~q of the quaternion algebra. It leaves exactly the vectors along the imaginary part where they are and turns those perpendicular to it by twice the angle whose cosine is the real part, in the positive sense.", "quantifier": "all unit quaternions and all pairs of 3-vectors", "why_tests_cant": "Rigidity is a universally quantified identity on a continuum of rotations and vectors; a sample of rotations cannot exclude a wrong sign or term that vanishes on the sampled axes.", "anchors": ["src/utMath/Quaternion.cpp: Quaternion::operator*(Vector)"]}
{"id": "C02", "title": "Quaternion rotation is a group action with conjugation as inverse", "statement": "(p*q)*v = p*(q*v) for all unit p,q and all v; the default quaternion rotates nothing; for unit q, ~q undoes q, and invert() does the same in place. Quaternions that rotate alike are equal or opposite, and a vector can be rotated to exactly the vectors of its length.", "quantifier": "all unit quaternions and all 3-vectors", "why_tests_cant": "The law ranges over all triples of real inputs.", "anchors": ["src/utMath/Quaternion.h: Quaternion(), invert, operator~", "src/utMath/Quaternion.cpp: operator*(Vector)"]}
{"id": "C03", "title": "Quaternion to matrix conversion agrees with quaternion rotation", "statement": "For every unit quaternion the 3x3 matrix written by toMatrix satisfies M*v = q*v for every v, is orthogonal and has determinant +1. Products and conjugates of quaternions become products and transposes of matrices, and only opposite quaternions share a matrix.", "quantifier": "all unit quaternions and all vectors", "why_tests_cant": "Must hold on the whole rotation group; tests only sample it.", "anchors": ["src/utMath/Quaternion.h: toMatrix"]}
{"id": "C04", "title": "Matrix to quaternion conversion inverts quaternion to matrix", "statement": "For every unit quaternion q, constructing a Quaternion from the rotation matrix of q yields q or -q (the same rotation), for every branch of the conversion including rotations by exactly 180 degrees. Products and transposes of rotation matrices convert to the products and conjugates of the quaternions, up to sign.", "quantifier": "all unit quaternions, all branches of the conversion", "why_tests_cant": "The branches meet on measure-zero sets (equal diagonal entries, 180 degree rotations) that random tests never hit.", "anchors": ["src/utMath/Quaternion.cpp: Quaternion(Matrix)", "src/utMath/Quaternion.h: toMatrix"]}
{"id": "C05", "title": "Exponential and logarithm maps are mutually inverse", "statement": "fromLogarithm always yields a unit quaternion; toLogarithm yields a rotation vector of length at most pi; fromLogarithm(toLogarithm(q)) is the same rotation as q for every unit q outside the documented near-identity cutoff, and toLogarithm(fromLogarithm(v)) = v for every v with 1e-11 <= |v| <= pi (just above the 1e-12 cutoff this fails, because the cutoff of the logarithm is on half the angle: shorter vectors give v or zero). A vector of a length between pi and 2 pi - 1e-11 comes back as the vector of the same axis that turns the other way round by the rest of the full turn.", "quantifier": "all unit quaternions; all rotation vectors", "why_tests_cant": "Continuum of inputs with a branch at the cutoff and at w<0.", "anchors": ["src/utMath/Quaternion.cpp: toLogarithm, fromLogarithm"]}
{"id": "C06", "title": "Spherical interpolation hits its end points and stays on the rotation group", "statement": "slerp(a,b,0) is the rotation a, slerp(a,b,1) is the rotation b, and slerp(a,b,t) is a unit quaternion for all unit a,b and all t (both the spherical and the near-equal linear branch); antipodal representatives give the same rotation path. Interpolating from b to a is at 1-t where interpolating from a to b is at t, and turning both rotations by a third one, from the left or from the right, turns the result by it. Between 0 and 1 the path comes nearer and nearer to b, moves away from a, and is nowhere farther from a or b than they are from each other.", "quantifier": "all pairs of unit quaternions and all parameters t", "why_tests_cant": "Continuous family of inputs; the branch on the dot product sign and on near-parallel inputs.", "anchors": ["src/utMath/Quaternion.cpp: slerp"]}
{"id": "C07", "title": "Sign alignment picks the nearer of the two representatives of a rotation", "statement": "negateIfCloser(q, p) returns q or -q, never a different rotation, and the returned quaternion is at least as close to p as its negation, for all q and p.", "quantifier": "all pairs of quaternions", "why_tests_cant": "Universally quantified over two continua.", "anchors": ["src/utMath/Quaternion.h: negateIfCloser"]}
{"id": "C08", "title": "Poses form a group acting on points", "statement": "For poses with unit rotations: composition is associative, the default pose is neutral, ~p is a two-sided inverse of p, and (p*q)*v = p*(q*v) for every point v. Every rigid motion of space is the motion of a pose, unique up to the sign of its quaternion.", "quantifier": "all poses with unit rotation, all points", "why_tests_cant": "Algebraic laws over all reals.", "anchors": ["src/utMath/Pose.cpp: operator~, operator*"]}
{"id": "C09", "title": "A pose and its homogeneous matrix describe the same motion", "statement": "The 4x4 matrix made from a pose maps (v,1) to (p*v,1), the matrix of a product of poses is the product of the matrices, and the matrix of ~p is the inverse matrix.", "quantifier": "all poses with unit rotation, all points", "why_tests_cant": "Universally quantified algebraic law.", "anchors": ["src/utMath/Pose.h", "src/utMath/Matrix.h: Matrix(Pose)", "src/utMath/Pose.cpp"]}
{"id": "C10", "title": "Pose vector form and interpolation", "statement": "fromVector(toVector(p)) = p for every pose; linear interpolation returns the first pose at 0 and the second (as a rotation) at 1, interpolates the translation affinely in between, and always returns a unit rotation for unit inputs. Moving both poses by a third one moves the interpolated pose by it; choosing another origin of the body does change the interpolated pose.", "quantifier": "all poses and all interpolation parameters", "why_tests_cant": "Continuum of poses and parameters.", "anchors": ["src/utMath/Pose.h: toVector, fromVector", "src/utMath/Pose.cpp: linearInterpolate"]}
{"id": "C11", "title": "Measurement identity through any history of constructions, copies, clones, writes and invalidations", "statement": "Across every finite sequence of API calls: copying aliases the payload but not the timestamp; clone gives an independent payload so later writes through one handle are never seen through the other; invalidate changes only its own handle's validity and leaves the payload readable; a measurement is invalid exactly when its timestamp is 0.", "quantifier": "all finite operation sequences over any number of measurement handles", "why_tests_cant": "Aliasing bugs show up only after particular interleavings of copy, clone and write; there are infinitely many histories.", "anchors": ["src/utMeasurement/Measurement.h: constructors, time, clone, invalid, invalidate, operator*"]}
{"id": "C12", "title": "Timestamp synchronisation: identity on first event and bounded rejection", "statement": "The first event is returned unchanged; the outlier budget stays within fixed bounds for ever; only events off the prediction by at least three times the average deviation are rejected; the events right after construction are never rejected as outliers; and no sequence of events can cause more than a fixed number of consecutive rejections. After every 2^32 events the counter is zero again and the next event is returned unchanged.", "quantifier": "all finite event histories with arbitrary native and local clock readings", "why_tests_cant": "A liveness-style bound over unbounded histories of adversarial clock values.", "anchors": ["src/utMeasurement/TimestampSync.h", "src/utMeasurement/TimestampSync.cpp: convertNativeToLocal"]}
{"id": "C13", "title": "Timestamp synchronisation filter stays well conditioned", "statement": "After any history of events the filter's 2x2 covariance stays symmetric positive (semi)definite, the correction gain lies strictly between 0 and 1, so a correction never overshoots the observed deviation. The unit in which the sensor counts its time does not change the returned times. Nor does the origin of its clock, and setting the local clock forward sets all returned times forward by as much.", "quantifier": "all finite event histories", "why_tests_cant": "Numerical invariants over unbounded histories.", "anchors": ["src/utMeasurement/TimestampSync.cpp: convertNativeToLocal, setFrequency"]}
{"id": "C14", "title": "Least-squares timestamp synchronisation: warm-up, averaging weights and acceptance", "statement": "The first events are passed through unchanged, the running averages are exact arithmetic means over the warm-up window, the acceptance decision never locks the filter out for ever, the variance used as divisor is never negative, during the warm-up it is zero exactly when all sensor times were equal, once it is positive it stays so, and events lying on an exact straight line are reproduced exactly however long the history. Neither the unit nor the origin of the sensor's clock changes a returned time, and setting the local clock forward sets all returned times forward by as much. After every 2^32 events the next ones are treated as by a new synchroniser. The returned time is always defined.", "quantifier": "all finite event histories", "why_tests_cant": "Unbounded histories.", "anchors": ["src/utMeasurement/TimestampSyncLS.h"]}
{"id": "C15", "title": "Binary (ROS style) serialization round-trips every value", "statement": "For every value of every supported shape (scalars, bool, strings, fixed and variable arrays, nested) whose lengths fit in 32 bits, reading what was written returns the same value, consumes exactly the bytes written, and the advertised length equals the number of bytes written.", "quantifier": "all values of the nested type universe, all surrounding buffer contents", "why_tests_cant": "Infinitely many values and nestings.", "anchors": ["src/utSerialization/ROSBinarySerialization.h: Serializer, VectorSerializer, ArraySerializer"]}
{"id": "C16", "title": "Binary (ROS style) streams never touch memory outside the buffer", "statement": "Whatever bytes are read, in whatever order of reads and writes, an access that would run past the end of the buffer throws and no byte outside the buffer is read or written.", "quantifier": "all byte strings and all sequences of reads/writes", "why_tests_cant": "Quantifies over all (malicious) inputs.", "anchors": ["src/utSerialization/ROSBinarySerialization.h: Stream::advance, IStream, OStream"]}
{"id": "C17", "title": "MessagePack conversion round-trips every Ubitrack type", "statement": "Packing any scalar, vector, matrix, quaternion, pose, error pose, camera intrinsics or measurement and converting back returns the same value.", "quantifier": "all values of the supported types, including all matrix shapes", "why_tests_cant": "All element values and all shapes; the indexing bug it uncovers is invisible on square matrices.", "anchors": ["src/utSerialization/MsgpackSerializer.h"]}
{"id": "C18", "title": "Text archive used for component configuration round-trips", "statement": "Any sequence of integers, unsigned long longs and non-blank characters written with the string output archive is read back unchanged, in order, by the string input archive; reading past the end throws.", "quantifier": "all finite sequences of values", "why_tests_cant": "Unbounded sequences and all integers.", "anchors": ["src/utUtil/SimpleStringIArchive.h", "src/utUtil/SimpleStringOArchive.h"]}
{"id": "C19", "title": "A failed calibration-file read does not change the caller's data", "statement": "If the file cannot be opened or parsed, the caller's variable still holds its previous value.", "quantifier": "all previous values, all failure points", "why_tests_cant": "All crash points during the read.", "anchors": ["src/utUtil/CalibFile.h: readCalibFile, readCalibFileDropMeasurement"]}
{"id": "C20", "title": "The assignment solver returns a minimum-cost matching", "statement": "For every cost matrix, solve() terminates and the row match list is a matching whose total cost is minimal among all matchings.", "quantifier": "all rectangular cost matrices", "why_tests_cant": "Optimality against all n! matchings for every n.", "anchors": ["src/utMath/Graph/Munkres.h"]}
{"id": "C21", "title": "RANSAC result is supported by the promised number of inliers", "statement": "When ransac returns k>0, k is at least the requested minimum, some tried hypothesis has exactly those k data points within the threshold, and the returned model is the estimator's result on exactly those points; when it returns 0 the hypothesis loop ran its full budget without success.", "quantifier": "all data sets of fewer than 2^31 points, all parameters that ask for at least one inlier and a sample no larger than the data, all estimators/evaluators and all random subsets drawn", "why_tests_cant": "Quantifies over arbitrary user functors and random schedules.", "anchors": ["src/utMath/Optimization/Ransac.h: ransac"]}
{"id": "C22", "title": "RANSAC early termination of the inlier count loses nothing", "statement": "Skipping the rest of the data once the minimum can no longer be reached never rejects a hypothesis that has the required number of inliers.", "quantifier": "all data sets of fewer than 2^31 points (larger ones wrap the signed comparison), thresholds and evaluators", "why_tests_cant": "Arbitrary data and evaluators.", "anchors": ["src/utMath/Optimization/Ransac.h: ransac"]}
{"id": "C23", "title": "Levenberg-Marquardt never returns something worse than the start and always stops", "statement": "The returned residual is the residual of the returned parameters and is never larger than that of the initial parameters, accepted residuals decrease monotonically, and with a positive iteration limit the loop ends after at most that many trial steps (plus one pass for a failed Cholesky factorisation).", "quantifier": "all problem functions, measurements, start values and linear-solver behaviours", "why_tests_cant": "Arbitrary user functions.", "anchors": ["src/utMath/Optimization/LevenbergMarquardt.h", "src/utMath/Optimization/Optimization.h: OptTerminate"]}
{"id": "C24", "title": "Downhill simplex bookkeeping", "statement": "Throughout the minimisation the stored function values are those of the stored vertices and the running vertex sum is exact; the returned value is the function value of the returned point and is never larger than the best initial vertex.", "quantifier": "all objective functions, start points, dimensions and iteration counts", "why_tests_cant": "Arbitrary objective functions and unbounded iteration.", "anchors": ["src/utMath/Optimization/DownhillSimplex.h"]}
{"id": "C25", "title": "k-means labels are nearest-centroid labels", "statement": "The returned label of every point refers to an existing centroid and no other returned centroid is closer (earlier centroid wins ties); seeding returns at most the requested number of centroids, all taken from the data.", "quantifier": "all data sets, numbers of clusters, distance functions and random draws", "why_tests_cant": "Arbitrary data and random schedules.", "anchors": ["src/utMath/Stochastic/k_means.h"]}
{"id": "C26", "title": "Averages do not depend on measurement order and respect the double cover", "statement": "The average of scalars, vectors, rotations and poses is invariant under reordering; the averaged rotation is a unit quaternion and is unchanged when any input quaternion is replaced by its negation (non-zero real part); the covariance computed with the mean is the exact population covariance and is positive semidefinite. The average of rotations near to each other is near to them. The average of vectors under any affine map is the image of their average, and turning rotations turns their average.", "quantifier": "all non-empty measurement lists and all permutations", "why_tests_cant": "All permutations of unbounded lists.", "anchors": ["src/utMath/Stochastic/Average.h"]}
{"id": "C27", "title": "Correlation coefficient is a correlation coefficient", "statement": "For non-constant sequences computeCorrelation lies in [-1,1], is symmetric, equals 1 for a sequence with itself, and is invariant under positive affine rescaling of either sequence. It is 1 if and only if the paired values lie on a rising line, and -1 if and only if they lie on a falling line.", "quantifier": "all pairs of finite sequences", "why_tests_cant": "Universally quantified inequality (Cauchy-Schwarz).", "anchors": ["src/utMath/Stochastic/Correlation.h"]}
{"id": "C28", "title": "Covariance propagation keeps covariances valid", "statement": "Propagating a covariance through a function's Jacobian yields J C J^T, which is symmetric positive semidefinite whenever C is; the in-place sub-range version gives the same matrix as propagating the full block-extended Jacobian. For functions that are linear up to a constant the result is exactly the mean and covariance of the function's values on any samples with the given mean and covariance.", "quantifier": "all dimensions, Jacobians, sub-ranges and covariances", "why_tests_cant": "All dimensions and all matrices.", "anchors": ["src/utMath/Stochastic/CovarianceTransform.h"]}
{"id": "C29", "title": "Kalman measurement update is the textbook update", "statement": "The update equals x + K(z-h), P - K H P with K = P H^T (H P H^T + R)^-1 for the Jacobian embedded into the full state; the result covariance is symmetric positive semidefinite and never larger than the prior; the identity variant equals the general one with a selection Jacobian; a perfect prediction leaves the state unchanged; the order in which linear measurements arrive does not change the final state.", "quantifier": "all state and measurement dimensions, all states, covariances and measurements", "why_tests_cant": "All dimensions and matrices.", "anchors": ["src/utMath/Stochastic/Kalman.h"]}
{"id": "C30", "title": "Camera intrinsics: project and unproject are inverse, zero distortion changes nothing", "statement": "For intrinsics with non-zero focal lengths and K(2,2)=+-1, projecting an unprojected pixel gives the pixel back and vice versa; distort with all-zero coefficients is the identity on pixels; the principal point is a fixed point of distort for all coefficients.", "quantifier": "all intrinsics and pixels", "why_tests_cant": "Continuum of parameters.", "anchors": ["src/utAlgorithm/CameraLens/Distortion.h", "src/utAlgorithm/LensDistortion.cpp"]}
{"id": "C31", "title": "Lens distortion Jacobians are the derivatives of the distortion", "statement": "The hand-written Jacobians of the 6+2 and 4 parameter distortion models with respect to the point and to the parameters are the true partial derivatives, at every point where the model is defined.", "quantifier": "all points and coefficients", "why_tests_cant": "A derivative is a limit statement at every point of a continuum.", "anchors": ["src/utAlgorithm/CameraLens/Undistortion.h: jacobian", "src/utAlgorithm/Function/RadialDistortion.h: jacobian"]}
{"id": "C32", "title": "Rotation Jacobians are the derivatives of the rotation", "statement": "The Jacobians of q*v with respect to q and v (all copies in the library) are the true partial derivatives at every quaternion (with respect to v: at every unit quaternion).", "quantifier": "all quaternions and vectors", "why_tests_cant": "A derivative is a limit statement at every point of a continuum.", "anchors": ["src/utAlgorithm/Function/QuaternionRotation.h", "src/utMath/Optimization/Function/QuaternionVectorRotation.h", "src/utAlgorithm/PoseEstimation3D3D/Optimization.h"]}
{"id": "C33", "title": "Pose error propagation uses the right Jacobians", "statement": "The Jacobians used for inverting and composing poses with uncertainty are the derivatives of the inverted/composed pose with respect to the small error of each operand, so the resulting covariance is first-order exact, symmetric and positive semidefinite.", "quantifier": "all poses with unit rotation and all covariances", "why_tests_cant": "A derivative is a limit statement at every point of a continuum.", "anchors": ["src/utMath/ErrorPose.cpp"]}
{"id": "C34", "title": "Conic manipulation functors do what they say to the point set", "statement": "Matrix and coefficient representations round-trip; translating, scaling and flipping a conic transforms exactly its zero set; the returned centre is the stationary point; horizontal/vertical limit and intersection results lie on the conic.", "quantifier": "all conics and all points", "why_tests_cant": "Set equality over all points of the plane.", "anchors": ["src/utMath/Geometry/Conic.h"]}
{"id": "C35", "title": "Quadric projection yields the outline conic", "statement": "Projecting an ellipsoid directly equals converting it to a quadric and projecting the quadric, and the dual of the projected conic is P Q* P^T. The projected conic is the outline: an image point lies on it exactly if its line of sight touches the ellipsoid.", "quantifier": "all camera matrices and ellipsoids/quadrics", "why_tests_cant": "Universally quantified polynomial identities.", "anchors": ["src/utMath/Geometry/QuadricFunctors.h"]}
{"id": "C36", "title": "Point normalisation is invertible and standardises the data", "statement": "The normalisation and de-normalisation matrices are mutually inverse for non-zero scale, applying the matrix equals shifting and scaling, and data normalised with the estimated parameters has mean 0 and variance 1 in every coordinate.", "quantifier": "all data sets and dimensions", "why_tests_cant": "All data sets of every size.", "anchors": ["src/utMath/Geometry/PointNormalization.h"]}
{"id": "C37", "title": "Point transformation and projection functors equal the matrix product", "statement": "For every matrix/point size combination the functor returns what multiplying by the (homogeneous) matrix returns; projections of lower-dimensional points equal those of their homogeneous embeddings.", "quantifier": "all matrices and points", "why_tests_cant": "The one wrong coefficient is invisible whenever the entry happens to be zero or equal.", "anchors": ["src/utMath/Geometry/PointTransformation.h", "src/utMath/Geometry/PointProjection.h"]}
{"id": "C38", "title": "Absolute orientation minimises the squared error", "statement": "Given an eigensolver that returns a unit eigenvector of the largest eigenvalue, the returned pose minimises the sum of squared point distances among all rigid motions; on noise-free data with at least two distinct points it maps every point to its partner, and with three points not on a line it is the true motion; it reports failure exactly when the point sets are uncorrelated; the scale estimate is exact for similar point sets.", "quantifier": "all point sets of any size >= 1 and all competing rigid motions", "why_tests_cant": "Optimality against a continuum of competitors.", "anchors": ["src/utAlgorithm/PoseEstimation3D3D/Rotation3D.h", "src/utAlgorithm/PoseEstimation3D3D/Pose6D.h", "src/utAlgorithm/PoseEstimation3D3D/Scale.h"]}
{"id": "C39", "title": "Tool-tip calibration solves the right equations", "statement": "A tip/offset pair has zero residual in the linear system exactly when every pose maps the offset to the tip; the squared residual of the system is the sum of squared tip distances, so a least-squares solution minimises it; with poses that share no axis the result on noise-free data is the true tip and offset; the reported error is mean and standard deviation of the distances; the refined and the robust variants minimise the same error (over all poses, over the inliers).", "quantifier": "all pose lists and all candidate tips", "why_tests_cant": "All list lengths and real inputs.", "anchors": ["src/utAlgorithm/ToolTip/LeastSquare.h", "src/utAlgorithm/ToolTip/ErrorEstimation.h", "src/utAlgorithm/ToolTip/Optimization.h", "src/utAlgorithm/ToolTip/Ransac.h"]}
{"id": "C40", "title": "Dual quaternion form of a pose round-trips and hand-eye equations hold", "statement": "Converting a pose to its dual quaternion and back is the identity for unit rotations; the dual quaternion of a product is the product; and hand-eye calibration from exact poses with sufficient movements returns exactly the transform, whichever of the two quaternions represents each rotation.", "quantifier": "all poses; all motion lists", "why_tests_cant": "Universally quantified algebra.", "anchors": ["src/utAlgorithm/PoseEstimation6D6D/DataSelection.h: pose_cast", "src/utAlgorithm/PoseEstimation6D6D/DualQuaternion.cpp"]}
{"id": "C41", "title": "Linear calibration systems (DLT, triangulation, epipolar) have exactly the intended solutions", "statement": "A matrix (point) solves the assembled homogeneous system exactly when it maps (projects) every input point to the measured point up to scale; de-normalising preserves this.", "quantifier": "all correspondence lists", "why_tests_cant": "All list lengths and real inputs.", "anchors": ["src/utAlgorithm/Homography.cpp", "src/utAlgorithm/Projection.cpp", "src/utAlgorithm/3DPointReconstruction.cpp", "src/utAlgorithm/FundamentalMatrix.cpp"]}
{"id": "C42", "title": "OpenGL projection matrices map the view volume to the clip cube", "statement": "projectionMatrixToOpenGL sends pixel coordinates l,r,b,t to the clip cube's sides and depths n,f to its near and far planes, for every camera matrix; correctOrigin applied twice is the identity; the off-axis matrix maps the screen corners to the clip corners.", "quantifier": "all camera matrices, viewports and points in the view volume", "why_tests_cant": "Universally quantified over real parameters.", "anchors": ["src/utAlgorithm/Projection.cpp"]}
{"id": "C43", "title": "Constant-derivative motion model is a flow", "statement": "Predicting by dt1 and then dt2 equals predicting by dt1+dt2 for every model order, predicting by 0 changes nothing, predicting back undoes the prediction, and the Jacobian is the exact derivative.", "quantifier": "all orders, states and time steps", "why_tests_cant": "All orders and real inputs.", "anchors": ["src/utTracking/Function/LinearTimeUpdate.h", "src/utTracking/Function/PoseTimeUpdate.h"]}
{"id": "C44", "title": "Process-noise settings address disjoint parts of the state", "statement": "The index ranges for each position and orientation derivative are inside the state vector, pairwise disjoint and together cover it, so each setting changes exactly its own entries.", "quantifier": "all position/orientation orders", "why_tests_cant": "All orders.", "anchors": ["src/utTracking/LinearPoseMotionModel.h"]}
{"id": "C45", "title": "Predicting for an earlier time uses a negative time difference", "statement": "The rotation filter's prediction for a timestamp before the last measurement integrates the velocity backwards.", "quantifier": "all pairs of timestamps", "why_tests_cant": "Only timestamps in the wrong order show it; 2^128 pairs.", "anchors": ["src/utTracking/RotationOnlyKf.cpp: predict", "src/utTracking/PoseKalmanFilter.cpp: predictPose"]}
{"id": "C46", "title": "Relative-pose generation enumerates every pair exactly once and incrementally", "statement": "For n poses the generator outputs exactly the n(n-1)/2 relative poses of all pairs; updating with a longer list later appends exactly the pairs not yet present.", "quantifier": "all pose lists and all ways of growing them", "why_tests_cant": "All list lengths and update histories.", "anchors": ["src/utAlgorithm/PoseEstimation6D6D/DataSelection.h: generate_relative_pose6D_impl", "src/utAlgorithm/PoseEstimation6D6D/HandEyeCalibration.h: updateRelativePoses"]}
{"id": "C47", "title": "Block timers account for every completed block", "statement": "After any properly nested sequence of timed blocks the number of runs and the total ticks are the number and sum of completed blocks of that timer, and the average is their quotient. The code location reported for a timer is that of the block that last used it.", "quantifier": "all finite properly nested histories", "why_tests_cant": "Unbounded histories.", "anchors": ["src/utUtil/BlockTimer.h", "src/utUtil/BlockTimer.cpp"]}
{"id": "C48", "title": "Fixed-size inverse and determinant", "statement": "The 2x2 and 3x3 inverse functors return the two-sided inverse of every matrix with non-zero determinant, and the determinant functors return the determinant.", "quantifier": "all invertible matrices", "why_tests_cant": "Universally quantified polynomial identities.", "anchors": ["src/utMath/Functors/MatrixFunctors.h"]}
{"id": "C49", "title": "BLAS-like helpers compute the mathematical sums for every length", "statement": "Inner products, norms, matrix-vector, matrix-matrix and outer products equal their defining sums for every dimension.", "quantifier": "all dimensions and inputs", "why_tests_cant": "All dimensions.", "anchors": ["src/utMath/Blas1.h", "src/utMath/Blas2.h", "src/utMath/Blas3.h"]}
{"id": "C50", "title": "Iterators over index sequences visit exactly the selected elements", "statement": "Iterating an index-filtered sequence visits exactly the elements whose index entry matches, in order, and terminates; the identity sequence yields its value exactly n times.", "quantifier": "all index sequences", "why_tests_cant": "All sequences; the defect is an infinite loop.", "anchors": ["src/utMath/Stochastic/index_iterator.h", "src/utMath/Stochastic/identity_iterator.h"]}
{"id": "C51", "title": "Projecting with distortion equals projecting and then distorting", "statement": "Projecting a 3D point with a distorting camera gives the same pixel as projecting it with the pinhole model and distorting the pixel afterwards.", "quantifier": "all cameras, distortion models and points in front of or behind the camera", "why_tests_cant": "Two independent code paths over continuous parameters, including both handedness conventions.", "anchors": ["src/utAlgorithm/LensDistortion.cpp: projectWithDistortion, lensDistort"]}
{"id": "C52", "title": "Function objects return the Jacobian of what they evaluate", "statement": "For each function object of the optimisation framework (dehomogenisation, normalisation, norm, linear map, addition, subtraction, camera multiplication, hand-eye residual, exponential-map rotation, rotation velocity integration) the matrix returned by its Jacobian member is the derivative of the value returned by its evaluate member.", "quantifier": "all inputs in the domain of the function, all dimensions of the generic ones", "why_tests_cant": "Derivatives are limits over all nearby inputs; tests compare with finite differences at some points.", "anchors": ["src/utMath/Optimization/Function", "src/utMath/Optimization/NewFunction", "src/utAlgorithm/Function", "src/utAlgorithm/NewFunction"]}
{"id": "C53", "title": "Motion-model updates return the predicted state and its Jacobian", "statement": "The time updates of the motion models return the state transported by the elapsed time, keep the orientation quaternion of unit length, and return the Jacobian of that map.", "quantifier": "all states and time differences", "why_tests_cant": "Derivatives are limits over all nearby inputs; states and intervals are continuous.", "anchors": ["src/utTracking/Function/QuaternionTimeUpdate.h", "src/utTracking/Function/PoseTimeUpdate.h", "src/utTracking/Function/InsideOutPoseTimeUpdate.h", "src/utTracking/Function/LinearTimeUpdate.h"]}
{"id": "C54", "title": "Composed function expressions evaluate and differentiate like the composition", "statement": "An expression built by binding functions to parameters, constants and other expressions evaluates to the composition of the functions, independently of earlier calls, and its Jacobian is the derivative of that composition with respect to the parameter vector.", "quantifier": "all expressions of any depth, all parameter layouts, all functions that return correct Jacobians themselves", "why_tests_cant": "Expressions are unbounded trees with cached intermediate results; the defects need a parameter used twice or not at all.", "anchors": ["src/utMath/Optimization/NewFunction/Detail/Binder.h", "src/utMath/Optimization/NewFunction/Detail/Parameter.h", "src/utMath/Optimization/NewFunction/MultiVariateFunction.h", "src/utAlgorithm/MultipleCameraPoseOptimization.h: ObjectiveFunction"]}
{"id": "C55", "title": "Projection functions for pose optimisation return the projected points and their Jacobian", "statement": "For any number of points, cameras and visibilities, the pose-estimation objective functions return for each visible point its projection, in order, and the matrix of their Jacobian is the derivative of the documented projection with respect to the pose (or the pose error).", "quantifier": "all point sets, cameras, visibility lists and poses with non-zero depth", "why_tests_cant": "Derivatives over continuous inputs, unbounded number of points.", "anchors": ["src/utAlgorithm/Function/MultiplePointProjection.h", "src/utAlgorithm/Function/MultiplePointProjectionError.h", "src/utAlgorithm/Function/MultipleCameraProjection.h", "src/utAlgorithm/Function/MultipleCameraProjectionError.h", "src/utAlgorithm/Function/MultipleCameraProjectionErrorART.h", "src/utAlgorithm/Function/SinglePointMultiProjection.h"]}
{"id": "C56", "title": "Bundle adjustment: parameter layout, residuals and Jacobian are consistent", "statement": "Writing camera poses and points into the parameter vector and reading it back restores every pose and point; each observation is compared with the image of its own point in its own camera, and the Jacobian is the derivative of the images in every parameter, zero for the parameters an image does not depend on. The poses returned have unit quaternions.", "quantifier": "all numbers of cameras and points, all poses, points, observations and previous buffer contents", "why_tests_cant": "Unbounded networks and index layouts; continuous derivatives.", "anchors": ["src/utAlgorithm/BundleAdjustment.cpp: MinimizeReprojectionErrorAllPoints, simpleBundleAdjustmentImpl"]}
{"id": "C57", "title": "Kalman filters stay valid over any history of measurements", "statement": "Whatever pose, rotation and velocity measurements a tracking filter is given, in whatever order of time, its covariance stays symmetric and positive semidefinite, its orientation a unit quaternion and (pose filter) its angular velocity at most 10 rad/s. Its time is that of the last measurement it did not ignore. Rotation measurements never fail. After the first measurement of a pose or rotation the prediction for its time is exactly that measurement. A prediction before any measurement throws.", "quantifier": "all sequences of measurements, timestamps and motion-model orders", "why_tests_cant": "Histories are unbounded and continuous; the invariant must survive every step.", "anchors": ["src/utTracking/PoseKalmanFilter.cpp: PoseKalmanFilter", "src/utTracking/RotationOnlyKf.cpp: RotationOnlyKF"]}
{"id": "C58", "title": "Non-linear refinement of poses and tool tips: never worse, correct Jacobians", "statement": "Refining a pose from corresponding 3D points returns a pose with a unit quaternion whose residual error is at most that of the starting pose; the Jacobians given to the optimiser by the 3D-3D pose refinement and the tool-tip refinement are the derivatives of the residuals they accompany.", "quantifier": "all point sets, starting poses and iteration counts", "why_tests_cant": "Every input and every number of iterations; derivatives are limits over continuous inputs.", "anchors": ["src/utAlgorithm/PoseEstimation3D3D/Optimization.h", "src/utAlgorithm/ToolTip/Optimization.h"]}
{"id": "C59", "title": "Decomposing a camera matrix", "statement": "Decomposing a 3x4 camera matrix gives an upper triangular calibration matrix with positive first element and -1 in the last, a proper rotation and a translation whose product is the matrix up to scale, so that the decomposed camera has the same images. Decomposing a matrix composed of such parts gives the parts back.", "quantifier": "all camera matrices with regular left part", "why_tests_cant": "Continuous inputs; the defect needs a viewing direction that is not of length one.", "anchors": ["src/utAlgorithm/Projection.cpp: decomposeProjection"]}
{"id": "C60", "title": "Determinants, inverses and pseudo-inverses", "statement": "The determinant of a matrix is the determinant, the inverse of an invertible matrix is its inverse on both sides, and the pseudo-inverse satisfies the four Penrose conditions, hence is unique and is the one-sided inverse of a matrix of full rank.", "quantifier": "all matrices of any size", "why_tests_cant": "Continuous inputs of every size; pivoting depends on the values.", "anchors": ["src/utMath/MatrixOperations.h: determinant, invert_matrix, pseudoInvert_matrix"]}
{"id": "C61", "title": "The fundamental matrix of two views", "statement": "The fundamental matrix estimated from image correspondences is always singular and, from exact correspondences that determine it, is the true one up to scale; too few correspondences are rejected. The fundamental matrix computed from two camera poses satisfies the epipolar constraint for the images of every point and is not zero unless the centres coincide.", "quantifier": "all point lists, step sizes, poses and calibration matrices", "why_tests_cant": "Continuous inputs of any number; the defect needs a step size larger than one.", "anchors": ["src/utAlgorithm/FundamentalMatrix.cpp: getFundamentalMatrix, fundamentalMatrixFromPoses"]}
{"id": "C62", "title": "The relative pose from a fundamental matrix", "statement": "From the fundamental matrix of two calibrated cameras and one pair of corresponding image points the relative pose is recovered: the true rotation and the true direction of the translation. Whatever the input, a returned pose has a unit quaternion and a translation of length one.", "quantifier": "all fundamental matrices, calibrations and image points", "why_tests_cant": "Four candidate poses must be told apart for every configuration; continuous inputs.", "anchors": ["src/utAlgorithm/FundamentalMatrix.cpp: poseFromFundamentalMatrix"]}
{"id": "C63", "title": "Conversions between representations of rotations", "statement": "Converting a rotation between quaternion, matrix, axis with angle and rotation vector, in any direction, describes the same rotation: it moves every point to the same place. Axes obtained from a conversion have length one; quaternions have length one; rotation vectors shorter than 1e-10 become the identity.", "quantifier": "all rotations, axes, angles and points", "why_tests_cant": "A continuum of rotations with singular cases (identity, half turns, tiny angles) that sampling misses.", "anchors": ["src/utMath/Util/RotationCast.h: RotationCast", "src/utMath/Quaternion.h: Quaternion(axis, angle), Quaternion(x, y, z), toAxisAngle"]}
{"id": "C64", "title": "Euler angles", "statement": "The Euler angles of a rotation for a given sequence of axes, applied as three turns about these axes in the order of the sequence, reproduce the rotation.", "quantifier": "all unit quaternions, all six sequences, all points", "why_tests_cant": "A continuum of rotations; the defects sit at one of the two poles.", "anchors": ["src/utMath/Quaternion.cpp: getEulerAngles"]}
{"id": "C65", "title": "Estimating a normal distribution", "statement": "From values with weights that sum to one the estimated mean, covariance, variance and standard deviation are the weighted mean, the weighted covariance, its trace and the root of the trace; the covariance is symmetric and positive semidefinite. Without weights every value counts the same. With an index only the values with that index count. Without values false is returned.", "quantifier": "all lists of values in any number of dimensions, all weights and indices", "why_tests_cant": "Lists of any length of continuous values; symmetry and definiteness are quantified over all directions.", "anchors": ["src/utMath/Stochastic/Gaussian.h: estimate_gaussian, estimate_gaussian_index"]}
{"id": "C66", "title": "Expectation maximization never makes a mixture worse", "statement": "Each pass of expectation maximization keeps the weights non-negative with sum one and the covariances positive definite, moves the mixture's mean to the mean of the values, and never decreases the likelihood of the values; the returned mixture is at least as likely as the initial one and the returned number is its average log-likelihood.", "quantifier": "all lists of values, numbers of distributions and initial mixtures that do not become degenerate, all numbers of passes", "why_tests_cant": "Monotonicity is an inequality over a continuum of mixtures and data sets; tests see a few convergent runs.", "anchors": ["src/utMath/Stochastic/expectation_maximization.h: expectation_maximization, log_likelihood, Probability"]}
{"id": "C67", "title": "The Mahalanobis distance", "statement": "For a positive definite covariance C the distance of x to the mean m is the root of (x-m)' inverse(C) (x-m). It is zero exactly at the mean, is the Euclidean distance for the identity, is invariant under invertible affine maps, and is symmetric with the triangle inequality for a fixed covariance. A singular covariance throws.", "quantifier": "all dimensions, positive definite covariances, points and affine maps", "why_tests_cant": "Inequalities and invariance over a continuum of inputs.", "anchors": ["src/utMath/Stochastic/MahalanobisDistance.h: MahalanobisDistance"]}
{"id": "C68", "title": "Linear hand-eye calibration finds the mounting of the camera", "statement": "If a camera is rigidly mounted on a hand, looks at a fixed object and the poses are exact, then the linear calibration returns the pose of the camera on the hand, from all pairs or from neighbouring pairs of three or more poses that contain two turns about axes that are not parallel. The returned rotation is always a unit quaternion. Lists of different lengths throw, fewer than three poses give the identity.", "quantifier": "all poses of the hand and of the camera, all mountings, both selections of pairs, any number of poses", "why_tests_cant": "Exact recovery is a statement over a continuum of motions and mountings; tests use a few random poses and miss half turns.", "anchors": ["src/utAlgorithm/PoseEstimation6D6D/TsaiLenz.cpp: performHandEyeCalibration, computePcg, computeTcg, getQuaternion, getRcg"]}
{"id": "C69", "title": "Selecting pairs of motions for the calibration", "statement": "The selection returns the requested number of pairs, at most one less than the number of poses; each pair is the motion of the eye and the motion of the hand between the same two times, and is the pair of its cluster nearest to the mean. A cluster with a member always gets a pair. A pose survives the conversion to a 6-vector and back. The incremental selection returns, per cluster, the member nearest to the mean, and its list of compared poses follows the list of poses.", "quantifier": "all lists of three or more poses, all requested numbers, all random draws", "why_tests_cant": "The result depends on random draws and on a clustering of a continuum of poses; defects show only for rotations by more than half a turn and for single clusters.", "anchors": ["src/utAlgorithm/PoseEstimation6D6D/DataSelection.cpp: select_6DPoses, pose6D_selection_impl", "src/utAlgorithm/PoseEstimation6D6D/DataSelection.h: DataSelection, pose_cast, hemisphere_alignment, RotationDistance"]}
{"id": "C70", "title": "Online hand-eye calibration of the rotation", "statement": "After any history of pairs the estimate minimises the squared deviations from the equations of all pairs (with a small term for short vectors); the result is a unit quaternion. For exact pairs ax = xb the error is at most the share of the small term, and for an endless sequence of pairs that determine every direction the results converge to x.", "quantifier": "all lists and sequences of pairs of rotations, all mountings", "why_tests_cant": "Optimality and convergence are statements over unbounded histories and a continuum of rotations.", "anchors": ["src/utAlgorithm/OnlineRotHec.cpp: OnlineRotHec::addMeasurement, computeResult", "src/utMath/Stochastic/Kalman.h: kalmanMeasurementUpdate"]}
{"id": "C71", "title": "Kalman filter for the rotation of a hand-eye calibration", "statement": "Over any history of pairs the filter never divides by zero, its state is a unit quaternion and its covariance positive definite. Exact pairs ax = xb do not move a state that is x, and the first exact pair brings the state no farther from x.", "quantifier": "all lists of pairs of quaternions, all mountings", "why_tests_cant": "An invariant over unbounded histories of continuous inputs.", "anchors": ["src/utAlgorithm/RotationHecKalmanFilter.cpp: RotationHecKalmanFilter", "src/utAlgorithm/Function/RotHecFunction.h: RotHecMeasurement", "src/utMath/Quaternion.h: negateIfCloser"]}
{"id": "C72", "title": "Backward propagation of covariance", "statement": "Given the Jacobian J of a measurement function and the covariance E of the measurement, the result is the covariance of the parameters, the inverse of J' inverse(E) J, for E a multiple of the identity, diagonal, or any positive definite matrix. The result is symmetric and positive semidefinite; when some directions are not determined and E is a multiple of the identity, it is the covariance of the least-squares estimate by the pseudo-inverse.", "quantifier": "all Jacobians of all shapes with at least as many rows as columns, all covariances", "why_tests_cant": "An identity over all matrices; on square or unit-variance examples the defective versions agree with the correct ones.", "anchors": ["src/utMath/Stochastic/BackwardPropagation.h: backwardPropagation, backwardPropagationIdentity, backwardPropagationDiagonal"]}
{"id": "C73", "title": "The covariance of a pose from 3D point correspondences", "statement": "The covariance is that of a small translation and a small rotation applied before the rotation, for points whose coordinates have the residual as variance. It is positive semidefinite, exists whenever three of the points are not on one line, is zero exactly when the pose maps the points exactly, and follows a change of the unit of length.", "quantifier": "all lists of points and poses, all units of length", "why_tests_cant": "Rank conditions and scaling laws over a continuum of configurations.", "anchors": ["src/utAlgorithm/PoseEstimation3D3D/CovarianceEstimation.h: MultiplePointTransformationError, estimatePose6DCovariance", "src/utAlgorithm/PoseEstimation3D3D/ErrorEstimation.h: estimatePose6DResidual"]}
{"id": "C74", "title": "Vectors and matrices: order, equality, distance, handedness", "statement": "Vectors of ordered elements are totally ordered, component by component, consistently with equality, so they can be sorted and used as keys. The distance is a metric, the squared distance its square; normalising fails for the zero vector only and gives a unit vector of the same direction; the cross product is perpendicular to its arguments. Interpolation runs at constant speed between the vectors. Converting the handedness of a matrix commutes with mirroring the z axis, respects products and undoes itself. A matrix is restored from the array of its elements.", "quantifier": "all dimensions, vectors and matrices, all ordered element types", "why_tests_cant": "Order and metric axioms quantify over all triples of vectors of any dimension.", "anchors": ["src/utMath/Vector.h: Vector::operator<, operator==, linearInterpolate", "src/utMath/VectorFunctions.h: Distance, SquaredDistance, Normalize, cross_product", "src/utMath/Matrix.h: Matrix, operator==, leftHandToRightHandMatrix, serialize"]}
{"id": "C75", "title": "Camera intrinsics: constructors, saving and loading, opening angles", "statement": "A constructed camera knows how many distortion parameters it has, and its type agrees with it. Saving a camera to an archive does not change it, and loading the archive into a new object gives the same camera and consumes nothing else. The reported opening angles are the angles between the viewing rays through opposite borders and corners of the image. Converting the handedness of the camera matrix compensates for mirroring the viewing direction, and undoes itself.", "quantifier": "all camera matrices, distortion parameters, image sizes and archives", "why_tests_cant": "Round trips, rays and matrices range over all numbers and all number-of-parameter combinations; a test archive shows one.", "anchors": ["src/utMath/CameraIntrinsics.h: CameraIntrinsics, serialize, reset, angleHorizontal, angleVertical, angleDiagonal, flipHandiness"]}
{"id": "C76", "title": "Gauss-Newton optimization and numerical Jacobians", "statement": "The Gauss-Newton optimizer solves linear least-squares problems with its first iteration from any start, with analytic and with numerical Jacobians, and stays there. It stays at a point exactly when the derivative of the squared error vanishes, and from every other point it moves in a direction in which the error decreases. It never makes the error larger. Iterations can be split into several calls, and the result is normalised. The numerical Jacobian is exact for linear functions and tends to the Jacobian of any differentiable function when its width tends to zero.", "quantifier": "all problems, measurements, start parameters, widths and numbers of iterations", "why_tests_cant": "The claims range over all functions and start points; a test run optimises one.", "anchors": ["src/utMath/Optimization/GaussNewton.h: gaussNewton", "src/utMath/Optimization/Function/DiscreteJacobianApproximation.h: DiscreteJacobianApproximation::evaluateWithJacobian"]}
{"id": "C77", "title": "Rotation velocities", "statement": "The velocity computed from two rotations and the time between them, integrated over this time from the first rotation, gives the second (exactly, or within a distance of 2e-12 if they differ by a turn the logarithm drops); it is the velocity of the shorter way round. A motion with constant velocity is recovered from two rotations of it, if it does not turn by more than half a turn between them. Integrating over two intervals, one after the other, is integrating over their sum, also backwards in time. Integrating in any number of steps from any rotation differs from integrating once over the sum of the intervals by a distance of at most 5e-13 for each step and for the sum. Interpolating between two rotations is turning with the velocity between them. A velocity is its axis of length one times the angular velocity.", "quantifier": "all unit quaternions, velocities and intervals", "why_tests_cant": "The claims range over all rotations and intervals, including half turns and the smallest angles.", "anchors": ["src/utMath/RotationVelocity.h: RotationVelocity, integrate, angularVelocity, axis"]}
{"id": "C78", "title": "Camera pose from points and their images", "statement": "From at least four points of a plane, three of which are never on one line, and their exact images, the pose estimation returns the pose that produced the images, with residual zero, whatever plane the points are on. From six points in general position it returns the pose through the projection matrix. The rotation computed from a homography is always a rotation, and the one nearest to the measured columns. The residual it reports is the root mean square distance of the images of the points under the returned pose from the given images. Fewer points than needed are an error. Normalising a projective pose scales its rotation to length one and keeps every image.", "quantifier": "all poses, planes, camera matrices, lists of points of every length and all behaviours of the singular value decomposition within its contract", "why_tests_cant": "The singular value decomposition returns factors of any sign and order for equal values; no finite set of scenes covers all poses and planes.", "anchors": ["src/utAlgorithm/PoseEstimation2D3D/PlanarPoseEstimation.cpp: computePose, poseFromHomography, poseFromProjection, reprojectionError", "src/utAlgorithm/Function/ProjectivePoseNormalize.h: ProjectivePoseNormalize"]}
{"id": "C79", "title": "Result of the bundle adjustment", "statement": "If every camera has one observation of every point, the bundle adjustment ends with a result, and the sum of squared distances between observations and images is not larger afterwards than before. Cameras and points that explain the observations exactly are returned unchanged. The observations fix neither the world frame nor the scale, so a start that is moved and scaled as a whole is returned as it is as well. Cameras that miss points leave the behaviour undefined.", "quantifier": "all numbers of cameras and points, all starting poses with unit quaternions, all points, all observations, and every behaviour of the linear solvers", "why_tests_cant": "The optimiser takes a path that depends on every observation; tests run a few scenes with a few cameras.", "anchors": ["src/utAlgorithm/BundleAdjustment.cpp: simpleBundleAdjustment, BAFunction"]}
{"id": "C80", "title": "Serial port over its whole life", "statement": "Opening a port with a supported rate gives it a descriptor of the device of its name, changes the attributes of this terminal only, to the rate, data bits, parity, stop bits and timeouts asked for, and leaves every other descriptor of the process alone. An unsupported rate is an error that changes nothing, and an attempt that fails leaves nothing behind. Closing it restores the attributes and frees the descriptor; a closed port can be opened again, and closing it twice does no harm to other files. At every moment bytes are read from and sent to the device of the port, or the call is an error. Sending reports the number of bytes sent.", "quantifier": "all histories of calls on the port and of files opened and closed by the rest of the program, all settings, and all answers of the operating system", "why_tests_cant": "What goes wrong depends on what the rest of the process does between two calls and on failures of the operating system; tests have no terminal at hand.", "anchors": ["src/utUtil/SerialPort.cpp: SerialPort::open, close, read, send, bytesOnRead, sendBreak, flush", "src/utUtil/SerialPort.h: SerialPort, ~SerialPort"]}
{"id": "C81", "title": "Camera pose by orthogonal iteration", "statement": "The pose estimation from points and their images by orthogonal iteration reports as its error the sum of the squared distances of the moved points from the lines of sight of their images. A pose it reports as converged is a rigid motion with the best translation for its rotation; otherwise the pose is left alone. Allowing more passes or asking for a smaller tolerance never gives a larger error, and for every positive tolerance a number of passes known in advance is enough. Points at the same depth are recovered exactly. The computation is undefined only if all images coincide.", "quantifier": "all numbers of points, all points and images, all tolerances and limits of passes, and all behaviours of the eigensolver within its contract", "why_tests_cant": "The error is proved to go down in each of any number of passes from any start; a test sees single runs.", "anchors": ["src/utAlgorithm/PoseEstimation2D3D/NonPlanarPoseEstimation.cpp: estimatePose6D_2D3D, estimatePose2D3D_impl, estimateTranslation, calculateTFactorMatrix, calculateObjectSpaceError, lineOfSightProjectionMatrix", "src/utAlgorithm/PoseEstimation2D3D/NonPlanarPoseEstimation.h: estimatePose6D_2D3D"]}
{"id": "C82", "title": "Pose of an object seen by several cameras", "statement": "The pose estimation from several cameras returns a pose together with a weight. With too few observations (a camera below the minimum, or no camera with four points and no initial pose) the weight is -1. Otherwise the weight is the sum of squared distances between the observations and what the cameras see of the object at the returned pose, and with an initial pose it is not larger than the error of the initial pose; an initial pose that explains all observations is returned. Image points of weight zero do not matter. For bundles of points, the pose of each bundle depends on the points of this bundle alone. Consistent input never leads to undefined behaviour. Without an initial pose the optimisation starts at the pose found by the camera with most observations.", "quantifier": "all numbers of cameras and points, all observations, weights, camera poses and camera matrices, all lists of bundle sizes, and all behaviours of the linear solvers and of the pose estimation from one camera", "why_tests_cant": "The numbers of cameras, points and bundles are not bounded, and the claim on the error holds for every run of the optimiser; a test compares single results with a tolerance.", "anchors": ["src/utAlgorithm/MultipleCameraPoseOptimization.cpp: multipleCameraEstimatePose, checkConsistency, multipleCameraPoseEstimationWithLocalBundles, multipleCameraPoseEstimation", "src/utAlgorithm/MultipleCameraPoseOptimization.h: ObjectiveFunction"]}
{"id": "C83", "title": "Undistortion of image points", "statement": "Undistorting a pixel gives a pixel (an exception only if the fallback linear solver fails) which, distorted again, is at least as near to the given pixel as the given pixel distorted is: in sensor coordinates, and in the image for square pixels without skew. Pixels that the distortion does not move, in particular the principal point and all pixels of a camera without distortion, are returned unchanged. The two undistortion functions (eight coefficients; four coefficients) agree on the coefficients they share. Where the distortion is a small displacement, the result is near the true point with an explicit bound. Undistortion is the inverse of distortion.", "quantifier": "all camera matrices with non-zero focal lengths, all distortion coefficients, all pixels, all behaviours of the linear solvers", "why_tests_cant": "Images, coefficients and solver behaviour are continuous families; a test checks that some pixels come back within a tolerance.", "anchors": ["src/utAlgorithm/CameraLens/Undistortion.h: PointUndistortion, undistort", "src/utAlgorithm/LensDistortion.cpp: lensUnDistort", "src/utMath/Geometry/PointUndistortion.h: PointUndistortion"]}
{"id": "C84", "title": "Interpolated pixels of an image", "statement": "Looking up an image at real coordinates gives the bilinear interpolation of its pixels: exact at the pixels, between the smallest and the largest pixel, continuous, exact for planes, and zero outside. The derivative given for it is the smoothed slope (Sobel) of the picture at the nearest pixel, which for planes is the derivative of the value. No read outside the memory of the image, for any coordinates. The last row and column count as inside; the derivative is the derivative of the value.", "quantifier": "all image sizes, all pixel values, all real coordinates, all left factors of the derivative", "why_tests_cant": "Coordinates are a continuum and sizes are unbounded; reads out of bounds do not show up in the result of a test.", "anchors": ["src/utMath/Optimization/NewFunction/ImageLookup.h: ImageLookup::evaluate, ImageLookup::multiplyJacobian1"]}
{"id": "C85", "title": "Covariance of an estimated conic", "statement": "From points and the coefficients of a conic the library computes a covariance of the coefficients: the pseudo-inverse of the information of the points, where each point counts inversely to the noise times the squared gradient of the conic there. It is a symmetric positive semidefinite matrix, exists unless the gradient vanishes at a point, does not depend on the order of the points or on the scale of the conic, is divided by k if all points are measured k times, and gives no uncertainty to the scale of a conic through the points. The noise is the standard deviation named in the code, and the coefficients are those of the other conic functions.", "quantifier": "all lists of points, all coefficient vectors, all singular value decompositions LAPACK may return", "why_tests_cant": "The number of points is unbounded and the claims compare runs on all permutations, scalings and repetitions of the input.", "anchors": ["src/utMath/Geometry/ConicCovariance.h: estimateCovariance"]}
{"id": "C86", "title": "Clock, sleeping and printed times", "statement": "The current time is the system time in nanoseconds from 1970 until 2554, is as monotone as the system clock, and agrees with the counter for time measurements and its frequency. The long text of a timestamp exists for every 64 bit value without overrunning a buffer, has 28 characters and determines the second; the short text has 15 characters, shows the local time of day with microseconds, and within a day the alphabetic order of short texts is the order of the times. Sleeping takes the given milliseconds and nanoseconds.", "quantifier": "all 64 bit timestamps, all answers of the system clock in the range, all time zones (offsets to universal time), all arguments of the sleep function", "why_tests_cant": "2^64 timestamps; the order and injectivity claims range over pairs of them.", "anchors": ["src/utMeasurement/Timestamp.cpp: now, timestampToString, timestampToShortString", "src/utUtil/OS.cpp: sleep, getHighPerformanceCounter, getHighPerformanceFrequency"]}
{"id": "C87", "title": "Finding files in a directory", "statement": "Searching a directory for a kind of file adds to the given list exactly the existing entries of the kind (directories; files with one of the extensions of the kind), and leaves the list sorted, whatever the order in which the file system lists the directory. It fails for a path that does not exist, and if nothing is found. Nothing of another kind is added.", "quantifier": "all file systems, all orders of directory entries, all lists given, all kinds", "why_tests_cant": "The order of directory entries is up to the file system and the set of names is unbounded; a test sees the order of one machine.", "anchors": ["src/utUtil/GlobFiles.cpp: globFiles"]}
{"id": "C88", "title": "Random rotations, vectors and matrices", "statement": "A random rotation is a unit quaternion, every unit quaternion can occur, and the rotations are uniformly distributed: no fixed rotation before or after, and no orthogonal map, changes the probability of any event; the direction into which a fixed vector is turned is uniform as well. Random vectors and matrices have one number of the generator per element and stay within their limits, given in either order; normally distributed ones have the given means and deviations or the given covariance. Numbers drawn in different parts of a program are independent.", "quantifier": "all Borel sets of rotations, all orthogonal maps and unit quaternions; all limits, sizes and sequences of generator numbers; all interleavings of draws from source files", "why_tests_cant": "Uniformity is a statement about a measure on a continuum; any number of samples is compatible with another distribution.", "anchors": ["src/utMath/Random/Scalar.h: distribute_uniform, distribute_normal, RNG", "src/utMath/Random/Vector.h: Vector::Uniform, Vector::Normal", "src/utMath/Random/Matrix.h: Matrix::Uniform", "src/utMath/Random/Rotation.h: Quaternion::Uniform"]}
{"id": "C89", "title": "Points reconstructed from two unordered sets of image points", "statement": "reconstruct3DPoints pairs the points of two images one to one with the least sum of squared distances to the epipolar lines and returns the triangulated pairs in the order of the first image. For exact images of points in general position, in any order, it returns exactly the points. If one image has no points the result is empty. A call returns for all numbers of points and in the presence of measurement errors.", "quantifier": "all numbers of points, all cameras, fundamental matrices, points and permutations of the second image", "why_tests_cant": "Needs the optimum over all n! pairings for every n and every camera pair.", "anchors": ["src/utAlgorithm/3DPointReconstruction.cpp: reconstruct3DPoints, pointToPointDist, get3DPosition", "src/utMath/Graph/Munkres.h"]}
{"id": "C90", "title": "Which log messages are written", "statement": "A log message reaches the appenders of its category and of the categories above it, up to the first that is not additive, exactly once for each attachment, if its priority is at most the one in force for its category: its own or else that of the nearest category above that has one. This does not depend on the order in which categories are created and set. After initLogging() every message of priority INFO (NOTICE for the events categories) or more urgent is written to standard error exactly once. An appender writes what its threshold and the first filter that is not neutral allow. Making an exception never fails because of logging.", "quantifier": "all sequences of calls (creation, priority, additivity, attaching and detaching of appenders) on all dotted names, all messages, all filter chains, all interleavings of creation and setting a priority", "why_tests_cant": "The cached priorities in the objects must agree with the settings after every history of calls on every tree of names; races need the right schedule.", "anchors": ["src/utUtil/Logging.cpp: initLogging", "src/utUtil/Exception.cpp: Exception::Exception", "3rd/log4cpp/src/Category.cpp: Category, setPriority, updateChainedPriority, addAppender, callAppenders, log", "3rd/log4cpp/src/HierarchyMaintainer.cpp: getInstance", "3rd/log4cpp/src/AppenderSkeleton.cpp: doAppend", "3rd/log4cpp/src/Filter.cpp: decide"]}
{"id": "C91", "title": "What a log line looks like", "statement": "A conversion pattern, made of text and specifiers with minimal and maximal widths, gives for every event the text with the values of the specifiers, cut and filled up to their widths; messages are copied verbatim. With the pattern of initLogging() a line is: time with milliseconds, priority, file name, line number, message, category. %c{n} gives the last n parts of a category. A width applies to its own specifier, any number can be given to %c, and a rejected pattern leaves the layout as it was.", "quantifier": "all patterns (all lists of text and specifier items, all widths), all events", "why_tests_cant": "Infinitely many patterns and events; the parser mixes stream extraction and putback, whose corner cases are not sampled by typical patterns.", "anchors": ["src/utUtil/Logging.cpp: initLogging", "3rd/log4cpp/src/PatternLayout.cpp: setConversionPattern, format, FormatModifierComponent, CategoryNameComponent, TimeStampComponent, FilenameComponent", "3rd/log4cpp/src/Priority.cpp: getPriorityName"]}
{"id": "C92", "title": "XML values survive being written and read", "statement": "What is written for an attribute or a text is read back as the same value, whatever characters the value contains, and reading goes on right behind it; what is written contains no markup and no control characters; references to characters by number are read as the UTF-8 form of that character.", "quantifier": "all names, all values, all encodings, all that follows in the file", "why_tests_cant": "Values are arbitrary byte strings with references, quotes, control and multi-byte characters; escaping and reading interact in ways that samples of usual texts never show.", "anchors": ["3rd/tinyxml/tinyxml.cpp: TiXmlBase::EncodeString, TiXmlAttribute::Print", "3rd/tinyxml/tinyxmlparser.cpp: TiXmlBase::ConvertUTF32ToUTF8, SkipWhiteSpace, ReadName, GetEntity, ReadText, TiXmlAttribute::Parse, TiXmlText::Parse"]}
{"id": "C93", "title": "Saved XML documents load as they were", "statement": "A document that is saved and loaded again is the same document and no error is reported; a file that is not an XML document is reported as an error. In the file each tag has its own line, indented by four blanks per level; an element without children or with a text only is on one line.", "quantifier": "all documents: trees of any depth and width, all names, attributes, texts, comments, declarations, with and without byte order mark", "why_tests_cant": "Trees of unbounded depth; indentation, line breaks and condensed white space make saving and loading interact with the neighbours of each node.", "anchors": ["3rd/tinyxml/tinyxml.cpp: TiXmlDocument::LoadFile, SaveFile, TiXmlElement::Print, TiXmlText::Print, TiXmlComment::Print, TiXmlDeclaration::Print, TiXmlUnknown::Print", "3rd/tinyxml/tinyxmlparser.cpp: TiXmlDocument::Parse, TiXmlNode::Identify, TiXmlElement::Parse, ReadValue, TiXmlComment::Parse, TiXmlDeclaration::Parse, TiXmlUnknown::Parse, TiXmlText::Parse"]}
{"id": "C94", "title": "Reading XML files ends and finds positions", "statement": "Whatever a file contains, reading it ends, reads no memory outside of the file, and every node and error is reported with its row and column.", "quantifier": "all contents of files, all encodings, all tab sizes, all positions", "why_tests_cant": "Arbitrary, also damaged files; termination and memory safety cannot be seen from finitely many runs.", "anchors": ["3rd/tinyxml/tinyxmlparser.cpp: TiXmlParsingData::Stamp, TiXmlDocument::Parse, TiXmlBase::SkipWhiteSpace, ReadText, GetChar", "3rd/tinyxml/tinyxml.cpp: TiXmlDocument::LoadFile"]}
{"id": "C95", "title": "Refined camera poses are valid and better", "statement": "Refining a camera pose ends after the requested number of iterations; the returned rotation is a rotation, no point lies in the plane of the camera, the returned residual is the sum of squared distances between measurements and images for the returned pose, and unless the pose is returned as it was it is strictly smaller than before. A pose that explains the measurements exactly is kept with residual zero.", "quantifier": "all poses with a unit quaternion, all camera matrices, all numbers of points and measurements, all iteration counts, all behaviours of the linear solver", "why_tests_cant": "Iterations over real vectors of any length, with a linear solver that may fail at any step; a test sees one trajectory per scene.", "anchors": ["src/utAlgorithm/PoseEstimation2D3D/PlanarPoseEstimation.cpp: optimizePose", "src/utMath/Optimization/LevenbergMarquardt.h: weightedLevenbergMarquardt", "src/utAlgorithm/Function/MultiplePointProjection.h: MultiplePointProjection", "src/utAlgorithm/Function/ProjectivePoseNormalize.h: ProjectivePoseNormalize"]}
{"id": "C96", "title": "Covariances of camera poses are the inverse information", "statement": "The covariance that is computed for the pose of one camera, or of a rig of cameras, from the positions of points and the variance of image coordinates, is the inverse of the information that the images carry about the pose; it is symmetric and positive semidefinite and gives no variance to pose changes that the images cannot show. Exact measurements give the pose with covariance and residual zero.", "quantifier": "all poses with a unit quaternion, all camera matrices and camera poses, all numbers of points, cameras and observations, all variances, all singular value decompositions", "why_tests_cant": "Derivatives of projections with respect to pose errors and pseudo-inverses of matrices of any size, including those where the pose is not determined.", "anchors": ["src/utAlgorithm/PoseEstimation2D3D/PlanarPoseEstimation.cpp: singleCameraPoseError, multipleCameraPoseError, computePose", "src/utMath/Stochastic/BackwardPropagation.h: backwardPropagationIdentity", "src/utAlgorithm/Function/MultiplePointProjectionError.h", "src/utAlgorithm/Function/MultipleCameraProjectionError.h"]}
{"id": "C97", "title": "Log configuration files set up what they say", "statement": "A logging configuration file assigns properties line by line: the first assignment to a key counts, with comments, white space and the prefix log4j or log4cpp removed and variables replaced by the environment or earlier properties. Every appender that is defined with a valid class and layout is made once with the given settings; after a successful configuration every category that the file names has exactly the priority, additivity and appenders given there, and no other category is changed. Properties that were saved are the same when loaded again. If the file cannot be used, the default configuration is in force.", "quantifier": "all files, environments and earlier configurations, all names of appenders and categories", "why_tests_cant": "Texts of any length are combined with a sorted map and the tree of categories; failures can occur at every line and every category. Tests see single files.", "anchors": ["3rd/log4cpp/src/Properties.cpp: Properties::load, Properties::_substituteVariables", "3rd/log4cpp/src/PropertyConfiguratorImpl.cpp: PropertyConfiguratorImpl::doConfigure, instantiateAllAppenders, instantiateAppender, configureCategory, getCategories", "3rd/log4cpp/src/Priority.cpp: Priority::getPriorityValue", "3rd/log4cpp/src/StringUtil.cpp: StringUtil::trim", "src/utUtil/Logging.cpp: initLogging"]}
{"id": "C98", "title": "Rolling log files keep an unbroken end of the log within their sizes", "statement": "A rolling log file with its numbered backups always contains an unbroken end of all that was logged, in order, even if the program ends at any point of writing a message or of rolling over and is started again; at most the oldest backup is lost by one message. The file stays below its limit and each backup below the limit and one message; without interruption either everything is kept or all backups are there and at least as long as the limit. No other file is touched.", "quantifier": "all histories of messages, changes of the limit and crashes at every system call, all names, limits, numbers of backups and contents of the disk", "why_tests_cant": "A crash can happen between any two of the renames, and its effect shows only several roll-overs later. Tests see a few histories and no crash.", "anchors": ["3rd/log4cpp/src/RollingFileAppender.cpp: RollingFileAppender::rollOver, RollingFileAppender::_append", "3rd/log4cpp/src/FileAppender.cpp: FileAppender::FileAppender, FileAppender::_append"]}
{"id": "C99", "title": "Diagnostic contexts nest per thread", "statement": "The diagnostic context of a thread is the sequence of words that it has entered and not left, joined by single spaces, with their number as depth; leaving gives back the word entered last and the context before it; other threads have no influence; an inherited copy is what the other thread had when the copy was made.", "quantifier": "all interleavings of entering, leaving, clearing, copying and inheriting by any number of threads, all words", "why_tests_cant": "The full text is stored in every stack element and has to agree with the words after every history. Tests see a few nestings.", "anchors": ["3rd/log4cpp/src/NDC.cpp: NDC::push, NDC::pop, NDC::get, NDC::getDepth, NDC::clear, NDC::cloneStack, NDC::inherit"]}
{"id": "C100", "title": "Editing an XML tree keeps its pointers consistent and changes only what is named", "statement": "Adding, inserting, replacing and removing a child gives exactly the list of children described, at the position described, in both directions; what is inserted is a complete copy of the argument, which stays as it was; all other nodes keep their content and place; removing frees exactly the subtree; searches by name find the first or next child described. Every history of such calls leaves parent, first, last, previous and next pointers consistent.", "quantifier": "all trees, all positions, all subtrees, all names, all finite histories of edits on any number of trees", "why_tests_cant": "The pointers of five kinds of neighbours have to be updated in each call. Tests see a few shapes of trees.", "anchors": ["3rd/tinyxml/tinyxml.cpp: TiXmlNode::LinkEndChild, TiXmlNode::InsertEndChild, TiXmlNode::InsertBeforeChild, TiXmlNode::InsertAfterChild, TiXmlNode::ReplaceChild, TiXmlNode::RemoveChild, TiXmlNode::Clear, TiXmlNode::FirstChild, TiXmlNode::LastChild, TiXmlNode::NextSibling, TiXmlNode::PreviousSibling, TiXmlNode::FirstChildElement, TiXmlNode::NextSiblingElement, TiXmlElement::Clone, TiXmlElement::CopyTo, TiXmlDocument::CopyTo"]}
{"id": "C101", "title": "Attributes of an XML element are a map, and numbers survive", "statement": "An attribute has the value set last, if it has not been removed since; each name occurs once; the order is that of creation; going through the attributes, copying and printing reach all of them; an int set is read back, and a double up to half a millionth.", "quantifier": "all histories of setting and removing, all names and values, all 32-bit integers, all rational numbers below 10^240", "why_tests_cant": "The set is a linked list searched by name, and its end is recognised by an empty name and value. Tests see few histories and numbers.", "anchors": ["3rd/tinyxml/tinyxml.cpp: TiXmlElement::SetAttribute, TiXmlElement::SetDoubleAttribute, TiXmlElement::RemoveAttribute, TiXmlElement::Attribute, TiXmlElement::QueryIntAttribute, TiXmlElement::QueryDoubleAttribute, TiXmlAttribute::QueryIntValue, TiXmlAttribute::QueryDoubleValue, TiXmlAttribute::Next, TiXmlAttributeSet::Add, TiXmlAttributeSet::Remove, TiXmlAttributeSet::Find", "3rd/tinyxml/tinyxml.h: TiXmlAttribute::SetName"]}
{"id": "C102", "title": "White space in an XML file makes no difference, and printing to memory is read back", "statement": "A document is read the same whatever white space stands between its nodes and attributes, around '=' and before '>' or '/>', whichever quotation marks are used, whichever line breaks the file has, and whether an element without children is written as one tag or two. What a printer writes to memory or a stream, with any indentation and line break, is read back as the same document, has the same lines as a saved file, and a printer used again appends.", "quantifier": "all documents of any depth, all white space at every place, all indentations and line breaks made of white space", "why_tests_cant": "The positions where white space can occur and the documents are unbounded; the parser condenses white space in texts and treats it by position. Tests see a few files, mostly written by the library itself.", "anchors": ["3rd/tinyxml/tinyxmlparser.cpp: TiXmlDocument::Parse, TiXmlElement::Parse, TiXmlElement::ReadValue, TiXmlAttribute::Parse, TiXmlBase::SkipWhiteSpace", "3rd/tinyxml/tinyxml.cpp: TiXmlDocument::LoadFile, TiXmlPrinter, TiXmlElement::Accept, TiXmlDocument::Accept, operator<<", "3rd/tinyxml/tinyxml.h: TiXmlPrinter"]}
{"id": "C103", "title": "Documents written to a stream are read back one by one", "statement": "Documents of one element, with comments and the like before it, that stand one behind the other in a stream, in any layout, are read by operator>> one after the other, each as it was written; what follows stays in the stream. At the end an empty document is reported and the stream is no longer good.", "quantifier": "all lists of documents of any depth, all layouts, everything that may follow in the stream", "why_tests_cant": "Where a document ends is found by a scan that does not parse; it must agree with the parser for every content and nesting of elements, comments, CDATA and unknown tags, which tests cannot enumerate.", "anchors": ["3rd/tinyxml/tinyxmlparser.cpp: TiXmlDocument::StreamIn, TiXmlElement::StreamIn, TiXmlComment::StreamIn, TiXmlText::StreamIn, TiXmlUnknown::StreamIn, TiXmlDeclaration::StreamIn, TiXmlBase::StreamTo, TiXmlBase::StreamWhiteSpace", "3rd/tinyxml/tinyxml.cpp: operator>>, operator<<"]}
{"id": "C104", "title": "Simple logging configuration files do what their commands say", "statement": "SimpleConfigurator::configure makes exactly the calls its file asks for, in order: category names are created, priorities are set and appenders with the given kind, arguments and layout are added, whatever the white space and comments between the words. A wrong command, or a file that ends within a command, throws ConfigureFailure.", "quantifier": "all files of commands and comments with any white space; all wrong commands behind correct ones, with anything behind them", "why_tests_cant": "The parser is a chain of stream extractions whose failure has an effect on all later ones; which command a failure hits depends on the rest of the file, for every file.", "anchors": ["3rd/log4cpp/src/SimpleConfigurator.cpp: SimpleConfigurator::configure", "3rd/log4cpp/src/Priority.cpp: Priority::getPriorityValue"]}
{"id": "C105", "title": "Messages for the system log arrive whole, with their facility and severity", "statement": "A message that is logged to a remote system log is sent to the host that was named, in packets of at most 900 bytes that each start with '<n>' and together contain the whole message, where n is eight times the facility plus the severity of the message's priority; facility and port have their defaults when none is given. A local system log gets the same number and the message.", "quantifier": "all messages of any length, all priorities, all facilities, all addresses of the host", "why_tests_cant": "The message is cut within one buffer that is shifted in place; the bounds depend on the lengths of message and number, and the address on the host.", "anchors": ["3rd/log4cpp/src/RemoteSyslogAppender.cpp: RemoteSyslogAppender::_append, open, reopen, close, toSyslogPriority", "3rd/log4cpp/src/SyslogAppender.cpp: SyslogAppender::_append, toSyslogPriority", "3rd/log4cpp/src/PropertyConfiguratorImpl.cpp: PropertyConfiguratorImpl::instantiateAppender"]}
{"id": "C106", "title": "A category with a fixed context delivers like its category, with its own context and priority", "statement": "A message to a category with a fixed context reaches an appender once for every category on the way up from its name to which the appender has been attached, with the context that was set last for the object; it is delivered if its priority is at most the one set for the object or, without such, the one in force for the category above its name, whatever is set, and in which order, before and after the construction. Messages to ordinary categories are delivered as if the object did not exist.", "quantifier": "all sequences of calls on categories before the construction, all sequences of calls on categories and the object afterwards, all names, contexts and priorities", "why_tests_cant": "The priority is cached in the object and kept up to date through lists of children; a test sees one hierarchy and one order of calls.", "anchors": ["3rd/log4cpp/src/FixedContextCategory.cpp: FixedContextCategory", "3rd/log4cpp/src/Category.cpp: Category::Category, setPriority, _updateChainedPriority, log, callAppenders, ~Category"]}
{"id": "C107", "title": "What is streamed into a category arrives as whole messages", "statement": "For a stream obtained from a category while its priority is enabled, the pieces written between two ends of a message (ENDLINE, eol, flush, the destruction of the stream) form one message, each piece filled up to the width set before it; every such message reaches the appenders once and in order, as a call of log with this text at the end of the message would, and messages to which nothing belongs do not. A stream whose priority is not enabled when it is obtained discards everything. Messages of streams that are written alternately are not mixed.", "quantifier": "all sequences of pieces, widths, ends of messages and changes of categories in between, all categories, priorities and histories before", "why_tests_cant": "Buffers are allocated and deleted on the way, and the priority is looked at when the stream is obtained and again at the end of each message; tests see one order of steps.", "anchors": ["3rd/log4cpp/src/CategoryStream.cpp: CategoryStream, eol, left", "3rd/log4cpp/include/log4cpp/CategoryStream.hh: CategoryStream::operator<<", "3rd/log4cpp/src/Category.cpp: Category::getStream"]}
{"id": "C108", "title": "Filters of an appender decide in the order of their chain and are deleted with it", "statement": "An appender with a chain of filters writes an event exactly if the event's priority is within the threshold and the first filter of the chain that is not neutral, if any, accepts it. Appending a filter appends its chain at the end; setting the next filter, replacing the filter of an appender and destroying the appender delete exactly the filters that are dropped.", "quantifier": "all chains of any length, all filters and events, all contents of memory", "why_tests_cant": "Chains are linked objects with unlimited length, and what may go wrong (circles, objects used after deletion) depends on how chains overlap.", "anchors": ["3rd/log4cpp/src/Filter.cpp: Filter::decide, getEndOfChain, setChainedFilter, appendChainedFilter, ~Filter", "3rd/log4cpp/src/AppenderSkeleton.cpp: AppenderSkeleton::doAppend, setFilter, ~AppenderSkeleton"]}
{"id": "C109", "title": "Handles find XML nodes by name and index, or lead nowhere", "statement": "A row of calls on a handle of an XML node (FirstChild, FirstChildElement, Child, ChildElement, with or without a value) always has exactly one result: each call leads to the child of the given index among the children of that value and kind, in their order; if there are not so many, the handle and all that follow are null, and no null pointer is used.", "quantifier": "all trees that can be built, all rows of calls of any length, all values and indices", "why_tests_cant": "Rows of calls and trees are unlimited, and every call may be made on a null handle.", "anchors": ["3rd/tinyxml/tinyxml.cpp: TiXmlHandle::FirstChild, FirstChildElement, Child, ChildElement", "3rd/tinyxml/tinyxml.h: TiXmlHandle"]}
{"id": "C110", "title": "Basic and simple log lines tell what was logged", "statement": "A stream appender with the basic or the simple layout writes one line for each event, in their order, and from the line one can tell the priority and the message, and with the basic layout the time in seconds, the category and the context too.", "quantifier": "all events, all lists of events, both layouts", "why_tests_cant": "Texts of fields are unlimited, and whether two different events give the same line concerns all pairs of events.", "anchors": ["3rd/log4cpp/src/BasicLayout.cpp: BasicLayout::format", "3rd/log4cpp/src/SimpleLayout.cpp: SimpleLayout::format", "3rd/log4cpp/src/OstreamAppender.cpp: OstreamAppender::_append", "3rd/log4cpp/src/Priority.cpp: Priority::getPriorityName"]}
{"id": "C111", "title": "Formatted messages are logged as they are, and queues return them in their order", "statement": "A formatted message is logged with all its characters. A queue appender returns the messages within its threshold in the order they were logged, each once, and tells when there is none.", "quantifier": "all texts that formats and arguments stand for; all histories of events, popMessage and setThreshold", "why_tests_cant": "Lengths of texts and histories are unlimited.", "anchors": ["3rd/log4cpp/src/StringUtil.cpp: StringUtil::vform", "3rd/log4cpp/src/StringQueueAppender.cpp: StringQueueAppender::_append, popMessage", "3rd/log4cpp/src/AppenderSkeleton.cpp: AppenderSkeleton::doAppend, setThreshold"]}
{"id": "C112", "title": "Comparing poses", "statement": "p == q holds exactly when the four numbers of the rotation and the three numbers of the translation agree, and p != q exactly when p == q does not hold. The comparison is reflexive, symmetric and transitive on numbers, and equal poses move every point to the same place. Two poses with unit rotations move every point alike exactly when they compare equal or compare equal after the sign of all four numbers of one rotation is changed; a pose and the one with the changed sign compare unequal. ~~p == p, and ~(p*q) == ~q * ~p.", "quantifier": "all pairs and triples of poses; all points; for the motion and the inverse all unit rotations", "why_tests_cant": "Tests compare finitely many poses; which different poses move all points alike needs all points and all rotations.", "anchors": ["src/utMath/Pose.cpp: Pose::operator==, Pose::operator!=, Pose::operator~, Pose::operator*", "src/utMath/Vector.h: operator=="]}
{"id": "C113", "title": "Synchronised times do not run backwards", "statement": "If neither the sensor's times nor the times of receipt run backwards, the times returned by the two timestamp synchronisations do not run backwards either: the time returned for an event is not before the time returned for the event before it.", "quantifier": "all histories of events and changes of frequencies; all positive frequencies; all further events with time differences below 2^62", "why_tests_cant": "A history is an unbounded sequence of real numbers and 64-bit times, and the filter's state depends on all of it; the defect needs a burst of events whose receipt is delayed.", "anchors": ["src/utMeasurement/TimestampSync.cpp: TimestampSync::convertNativeToLocal", "src/utMeasurement/TimestampSync.h: TimestampSync", "src/utMeasurement/TimestampSyncLS.h: TimestampSyncLS::convertNativeToLocal"]}
