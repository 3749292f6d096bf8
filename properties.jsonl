{"id": "C01", "title": "Rotation composition, inverse and action form the group SO(3)", "statement": "Composing rotations is associative with Rotation::Identity() as unit; Inverse() of a proper rotation is a two-sided inverse for composition; R.Inverse(v) and R.Inverse(Twist/Wrench) return exactly R.Inverse()*argument; (R1*R2)*v = R1*(R2*v); proper rotations preserve dot products, norms and cross products; SetInverse twice restores the value; composition and inversion of proper rotations are proper rotations.", "quantifier": "for all 3x3 real matrices (associativity, action) and for all proper rotations R (inverse, isometry) and all vectors, twists, wrenches", "why_tests_cant": "A test can only try finitely many matrices; the laws quantify over a nine-dimensional continuum.", "anchors": ["orocos_kdl/src/frames.inl: Rotation::Inverse, Rotation::SetInverse, operator*(Vector/Twist/Wrench)", "orocos_kdl/src/frames.cpp: operator*(Rotation,Rotation)"]}
{"id": "C02", "title": "Every rotation constructor yields a proper rotation", "statement": "RotX, RotY, RotZ, RPY, EulerZYZ, EulerZYX, Rot2 with a unit axis, Rot with any axis, Quaternion with a unit quaternion, and Identity all return a matrix R with R*R^T = I and det R = 1.", "quantifier": "for all real angles, all axes, all unit quaternions", "why_tests_cant": "Orthogonality has to hold at every angle and axis, including the degenerate axis fallback branch.", "anchors": ["orocos_kdl/src/frames.inl: Rotation::RotX/RotY/RotZ", "orocos_kdl/src/frames.cpp: Rotation::RPY, EulerZYZ, Quaternion, Rot, Rot2"]}
{"id": "C03", "title": "Frame composition, inverse and action form the group SE(3)", "statement": "Frame composition is associative with Frame::Identity(); F.Inverse() is a two-sided inverse for frames with proper rotation; F.Inverse(v) = F.Inverse()*v; (F1*F2)*v = F1*(F2*v); Make4x4 is a homomorphism to 4x4 matrices; Frame::Integrate with zero twist is the identity update.", "quantifier": "for all frames with proper rotation and all points", "why_tests_cant": "Infinite domain; the interplay of translation and rotation in Inverse is the classical place for a sign error.", "anchors": ["orocos_kdl/src/frames.inl: operator*(Frame,Frame), Frame::Inverse, Frame::operator*", "orocos_kdl/src/frames.cpp: Frame::Make4x4"]}
{"id": "C04", "title": "Twist and wrench transforms are group actions that preserve power", "statement": "F*Twist and F*Wrench are linear actions of SE(3) ((F1*F2)*t = F1*(F2*t), Inverse undoes it), Twist::RefPoint and Wrench::RefPoint compose additively, and the virtual power dot(twist,wrench) is unchanged by any of: transforming both by a frame, by a rotation, by an inverse frame, or changing the reference point of both.", "quantifier": "for all proper frames, twists, wrenches and reference point shifts", "why_tests_cant": "Duality between the two transforms is a relation between two functions for all inputs.", "anchors": ["orocos_kdl/src/frames.inl: Frame::operator*(Twist/Wrench), Frame::Inverse(Twist/Wrench), Twist::RefPoint, Wrench::RefPoint, dot"]}
{"id": "C05", "title": "Spatial cross products are dual, satisfy Jacobi and are equivariant", "statement": "Twist*Twist is antisymmetric and satisfies the Jacobi identity; dot(a*b, w) = -dot(b, a*w) for twists a,b and wrench w; F*(a*b) = (F*a)*(F*b) and the wrench analogue for proper frames F.", "quantifier": "for all twists, wrenches and proper frames", "why_tests_cant": "Algebraic identities over 12- to 24-dimensional input spaces.", "anchors": ["orocos_kdl/src/frames.inl: operator*(Twist,Twist), operator*(Twist,Wrench)"]}
{"id": "C06", "title": "RPY and Euler angles round trip", "statement": "For a proper rotation R, RPY(GetRPY(R)) = R (away from the epsilon gimbal band), results are in the documented ranges, EulerZYX is RPY with reversed argument order, and the documented alternative angle triples give the same rotation; the same for EulerZYZ/GetEulerZYZ.", "quantifier": "for all proper rotations outside the gimbal band and for all real angles", "why_tests_cant": "The two-argument arctangent branches and the gimbal threshold partition a continuum of inputs.", "anchors": ["orocos_kdl/src/frames.cpp: Rotation::RPY, GetRPY, EulerZYZ, GetEulerZYZ"]}
{"id": "C07", "title": "Quaternion round trip", "statement": "GetQuaternion of a proper rotation returns a unit quaternion and Quaternion(GetQuaternion(R)) = R, through every one of the four extraction branches; opposite quaternions denote the same rotation.", "quantifier": "for all proper rotations and all unit quaternions", "why_tests_cant": "Four branches chosen by inequalities between matrix entries; each must be right on its whole region, and the square root arguments must be positive there.", "anchors": ["orocos_kdl/src/frames.cpp: Rotation::GetQuaternion, Rotation::Quaternion"]}
{"id": "C08", "title": "Axis-angle extraction", "statement": "Rot2(axis, angle) built from GetRotAngle reproduces the rotation, the returned angle is in [0, PI], the axis has unit length, and at angle PI the axis with positive Z component is the one returned, as the documentation promises.", "quantifier": "for all proper rotations", "why_tests_cant": "Documented sign convention is about a measure-zero set (angle exactly PI) that random tests never hit.", "anchors": ["orocos_kdl/src/frames.cpp: Rotation::GetRotAngle, GetRot, Rot2", "orocos_kdl/src/frames.hpp: Rotation::GetRotAngle documentation"]}
{"id": "C09", "title": "diff and addDelta are inverse operations", "statement": "addDelta(a, diff(a,b,dt), dt) = b for vectors, twists, wrenches, joint arrays and, through the axis-angle logarithm, for rotations and frames.", "quantifier": "for all values a, b and all dt different from zero", "why_tests_cant": "Round trip over continua and an arbitrary step dt.", "anchors": ["orocos_kdl/src/frames.inl: diff, addDelta", "orocos_kdl/src/jntarray.cpp: Add, Subtract"]}
{"id": "C10", "title": "Rotation about an axis obeys the one-parameter group law", "statement": "Rot2(u,a)*Rot2(u,b) = Rot2(u,a+b), Rot2(u,0) = I, Rot2(u,-a) = Rot2(u,a)^T, Rot2(u,a)*u = u, R*Rot2(u,a)*R^T = Rot2(R*u,a); RotX/RotY/RotZ are the special cases and the time derivative of Rot2(u,q(t)) is [q' u]x Rot2(u,q(t)).", "quantifier": "for all unit axes u, all angles, all proper R, all differentiable q", "why_tests_cant": "Requires trigonometric identities for every angle.", "anchors": ["orocos_kdl/src/frames.cpp: Rotation::Rot2", "orocos_kdl/src/frames.inl: RotX, RotY, RotZ"]}
{"id": "C11", "title": "Denavit-Hartenberg constructors equal products of elementary transforms", "statement": "Frame::DH(a,alpha,d,theta) = Rz(theta) Tz(d) Tx(a) Rx(alpha) and Frame::DH_Craig1989(a,alpha,d,theta) = Rx(alpha) Tx(a) Rz(theta) Tz(d); both have proper rotation part. A chain of links has the same pose in both conventions when each link is taken with the joint before it (DH) or behind it (Craig).", "quantifier": "for all real parameters and all sequences of links", "why_tests_cant": "Equality of closed forms over a four-dimensional continuum.", "anchors": ["orocos_kdl/src/frames.cpp: Frame::DH, Frame::DH_Craig1989"]}
{"id": "C12", "title": "In-place axis rotations equal right multiplication", "statement": "R.DoRotX(a), R.DoRotY(a), R.DoRotZ(a) leave R holding R*RotX(a), R*RotY(a), R*RotZ(a). Angles about the same axis add up, the opposite angle undoes a rotation, and a rotation stays a rotation.", "quantifier": "for all matrices R and all angles", "why_tests_cant": "In-place update order errors only show for particular matrices.", "anchors": ["orocos_kdl/src/frames.inl: Rotation::DoRotX, DoRotY, DoRotZ"]}
{"id": "C13", "title": "2D rotations: element access agrees with the action, group laws hold", "statement": "Rotation2 composition adds angles, Inverse is the inverse, the action matches the matrix reported by operator()(i,j), and Frame2 is a group acting on Vector2.", "quantifier": "for all angles, vectors, index pairs", "why_tests_cant": "Element access versus action must agree at all angles.", "anchors": ["orocos_kdl/src/frames.inl: Rotation2, Frame2"]}
{"id": "C14", "title": "Vector length and normalisation", "statement": "Vector::Norm returns the Euclidean length, is invariant under permuting coordinates and under proper rotations; Normalize leaves a unit vector parallel to the input and returns the old length, or (1,0,0) with return value 0 for vectors shorter than eps; the 2D-plane setters write the documented components.", "quantifier": "for all vectors and thresholds", "why_tests_cant": "The threshold sits in only one of three branches; a test with the wrong dominant coordinate misses it.", "anchors": ["orocos_kdl/src/frames.cpp: Vector::Norm, Vector::Normalize, Vector2::Norm", "orocos_kdl/src/frames.inl: Vector::Set2DXY, Set2DYZ, Set2DZX, Set2DPlane"]}
{"id": "C15", "title": "Equal is a symmetric, tolerance-monotone comparison applied to every component", "statement": "Equal(a,b,eps) holds exactly when every component differs by strictly less than eps, is symmetric, reflexive for eps>0, monotone in eps and satisfies the triangle law with summed tolerances, for vectors, rotations, frames, twists, wrenches and their versions with first and second derivatives; comparison with a constant is comparison with the constant curve.", "quantifier": "for all values and tolerances", "why_tests_cant": "A missing component is only visible for inputs differing in that component alone.", "anchors": ["orocos_kdl/src/frames.inl: Equal", "orocos_kdl/src/framevel.inl: Equal", "orocos_kdl/src/frameacc.inl: Equal"]}
{"id": "C16", "title": "First-order dual numbers differentiate correctly", "statement": "For Rall1d values representing (f(t), f'(t)), every arithmetic operator, in-place operator and elementary function returns (g(t), g'(t)) for the corresponding composite g.", "quantifier": "for all differentiable functions and all points where the operation is defined", "why_tests_cant": "Derivative correctness is a limit statement no finite test can establish.", "anchors": ["orocos_kdl/src/utilities/rall1d.h: operators, sin, cos, exp, log, pow, sqrt, atan, atan2, hypot, asin, acos, sinh, cosh, tan"]}
{"id": "C17", "title": "Second-order dual numbers differentiate correctly", "statement": "For Rall2d values representing (f, f', f''), every operator and elementary function, including the in-place forms, returns the value, first and second derivative of the composite.", "quantifier": "for all twice differentiable functions and all points where defined", "why_tests_cant": "Second derivative correctness is a limit statement; in-place forms may read already-updated fields.", "anchors": ["orocos_kdl/src/utilities/rall2d.h"]}
{"id": "C18", "title": "FrameVel / RotationVel / VectorVel / TwistVel carry true velocities", "statement": "If the inputs of an operation on the *Vel types represent (value, velocity) of differentiable curves, the result represents the value and velocity of the composed curve: product, inverse, action on points, twists and wrenches, cross and dot products, norm, and the elementary rotations RotX/RotY/RotZ/Rot/Rot2.", "quantifier": "for all differentiable curves of rotations, frames, vectors, twists", "why_tests_cant": "Limit statement over curves.", "anchors": ["orocos_kdl/src/framevel.inl"]}
{"id": "C19", "title": "FrameAcc / RotationAcc / VectorAcc / TwistAcc carry true accelerations", "statement": "Same as for the *Vel types with second derivatives: results represent value, velocity and acceleration of the composed curve.", "quantifier": "for all twice differentiable curves", "why_tests_cant": "Limit statement over curves.", "anchors": ["orocos_kdl/src/frameacc.inl"]}
{"id": "C20", "title": "diff/addDelta on frames with velocity are inverse operations", "statement": "addDelta(a, diff(a,b,dt), dt) reproduces b for VectorVel, and for FrameVel translation goes to translation and rotation to rotation.", "quantifier": "for all FrameVel a, b and nonzero dt", "why_tests_cant": "Argument-order mistakes between two same-typed vector arguments type check and show only on asymmetric inputs.", "anchors": ["orocos_kdl/src/framevel.hpp: diff(FrameVel), addDelta(FrameVel)", "orocos_kdl/src/framevel.inl: TwistVel constructor"]}
{"id": "C21", "title": "Joint pose and twist agree", "statement": "For every joint type, pose(q) is a proper frame, and along any differentiable q(t) the velocity of pose(q(t)) is twist(qdot) expressed at the joint frame's moving origin with base orientation; pose is affine in q with scale and offset; a Fixed joint has pose identity (or its fixed frame) and zero twist.", "quantifier": "for all joint types, axes, origins, scales, offsets, and differentiable motions", "why_tests_cant": "Derivative statement for every joint type and parameter.", "anchors": ["orocos_kdl/src/joint.cpp: Joint::pose, Joint::twist, Joint constructors"]}
{"id": "C22", "title": "Joint constructors reject mismatched types", "statement": "The axis/origin constructor raises joint_type_exception for every type other than RotAxis/TransAxis and the simple constructor raises it exactly for RotAxis/TransAxis; on success the stored axis has unit length.", "quantifier": "for all joint types and parameters with nonzero axis", "why_tests_cant": "Exhaustive over types and all parameters.", "anchors": ["orocos_kdl/src/joint.cpp: Joint::Joint"]}
{"id": "C23", "title": "Segment pose and twist", "statement": "Segment::pose(0) equals the user-given tip frame; Segment::pose(q) = joint.pose(q)*joint.pose(0)^-1*f_tip; Segment::twist(q,qdot) is the velocity of the tip of the segment in base orientation; setFrameToTip followed by getFrameToTip returns the frame.", "quantifier": "for all segments, joint values, motions", "why_tests_cant": "Derivative statement over all joint types.", "anchors": ["orocos_kdl/src/segment.cpp"]}
{"id": "C24", "title": "Chain bookkeeping", "statement": "After any sequence of addSegment/addChain, getNrOfSegments is the number of segments and getNrOfJoints the number of non-Fixed ones; copying preserves everything; assigning a chain to itself must not change it; appending a chain to itself must terminate with the doubled chain.", "quantifier": "for all operation sequences and all chains", "why_tests_cant": "Invariant over unbounded operation histories.", "anchors": ["orocos_kdl/src/chain.cpp: Chain::operator=, addSegment, addChain"]}
{"id": "C25", "title": "Forward position kinematics is the ordered product of segment poses", "statement": "ChainFkSolverPos_recursive::JntToCart returns E_SIZE_MISMATCH exactly when the joint array has the wrong size, E_OUT_OF_RANGE when the segment number is too large, otherwise NOERROR with the product of the first k segment poses consuming one joint value per non-fixed joint in order; the all-frames overload agrees with the single-frame overload for every k; chaining two chains composes the frames.", "quantifier": "for all chains, joint arrays, segment numbers", "why_tests_cant": "Unbounded chain length and joint type mixtures.", "anchors": ["orocos_kdl/src/chainfksolverpos_recursive.cpp"]}
{"id": "C26", "title": "Forward velocity kinematics is the derivative of forward position kinematics", "statement": "Along any differentiable joint motion, JntToCart with (q,qdot) returns the pose of the position solver together with the true derivative of that pose.", "quantifier": "for all chains and all differentiable joint motions", "why_tests_cant": "Limit statement over unbounded chains.", "anchors": ["orocos_kdl/src/chainfksolvervel_recursive.cpp"]}
{"id": "C27", "title": "The geometric Jacobian maps joint rates to the tip twist", "statement": "ChainJntToJacSolver::JntToJac gives J with J*qdot equal to the tip twist computed by the velocity solver, for every segment number; locked joints contribute no column and the remaining columns are the corresponding columns of the full Jacobian in order.", "quantifier": "for all chains, joint values, joint rates, lock patterns", "why_tests_cant": "Unbounded chains and lock masks.", "anchors": ["orocos_kdl/src/chainjnttojacsolver.cpp", "orocos_kdl/src/jacobian.cpp"]}
{"id": "C28", "title": "The Jacobian time derivative solver is the derivative of the Jacobian", "statement": "For each of the hybrid, body-fixed and inertial representations, JntToJacDot returns the time derivative of the Jacobian in that representation; the error codes are returned exactly for size mismatches and segments out of range; numbers that denote no representation change nothing; updateInternalDataStructures prepares the solver for the changed chain; locked joints select columns.", "quantifier": "for all chains and differentiable joint motions", "why_tests_cant": "Limit statement over unbounded chains with three representations.", "anchors": ["orocos_kdl/src/chainjnttojacdotsolver.cpp"]}
{"id": "C29", "title": "Jacobian base, reference point and reference frame changes act column-wise", "statement": "changeBase, changeRefPoint and changeRefFrame return true and transform every column as the corresponding twist operation, hence commute with multiplication by joint rates and compose like the group; they return false and leave the destination untouched when the sizes differ.", "quantifier": "for all Jacobians, frames, rotations, vectors", "why_tests_cant": "Unbounded column counts.", "anchors": ["orocos_kdl/src/jacobian.cpp: changeRefPoint, changeBase, changeRefFrame, MultiplyJacobian"]}
{"id": "C30", "title": "Joint array arithmetic implements dual number arithmetic, also in place", "statement": "Add, Subtract, Multiply, Divide on JntArrayVel/JntArrayAcc propagate first and second derivatives by the sum, product and quotient rules and give the same result when the destination is the source object.", "quantifier": "for all arrays and scalars", "why_tests_cant": "Aliased calls use already-overwritten operands only when the destination is the source.", "anchors": ["orocos_kdl/src/jntarrayvel.cpp", "orocos_kdl/src/jntarrayacc.cpp", "orocos_kdl/src/jntarray.cpp"]}
{"id": "C31", "title": "Tree numbering invariant", "statement": "After any sequence of addSegment/addChain/addTree from an empty tree, every non-fixed joint has a unique index below getNrOfJoints, all indices are used, the segment count matches, parents exist and precede children, and a failed addSegment leaves the tree unchanged.", "quantifier": "for all operation sequences", "why_tests_cant": "Unbounded histories.", "anchors": ["orocos_kdl/src/tree.cpp: addSegment, addChain, addTree, addTreeRecursive"]}
{"id": "C32", "title": "Copying and grafting trees", "statement": "Copying, assigning, addTree and getSubTree reproduce every segment with its data and parent, keep counters and child order, and copying preserves the joint numbering.", "quantifier": "for all trees reachable through the public interface", "why_tests_cant": "All tree shapes and insertion orders.", "anchors": ["orocos_kdl/src/tree.cpp: Tree(const Tree&), operator=, addTree, addTreeRecursive, getSubTree"]}
{"id": "C33", "title": "Chains extracted from trees", "statement": "getChain returns the segments on the way from the start up to the meeting point (reversed) and down to the end; its forward kinematics equals the relative pose of the two segments in the tree for all joint values; unknown names give false and an empty chain.", "quantifier": "for all trees, segment pairs and joint values", "why_tests_cant": "All tree shapes and joint values.", "anchors": ["orocos_kdl/src/tree.cpp: getChain"]}
{"id": "C34", "title": "Tree forward kinematics", "statement": "TreeFkSolverPos_recursive returns the ordered product of segment poses from the root using the joint numbers of the given tree, agrees with the chain solver on the extracted chain, and reports size and name errors.", "quantifier": "for all trees, joint arrays and names", "why_tests_cant": "Unbounded trees, continuum of joint values.", "anchors": ["orocos_kdl/src/treefksolverpos_recursive.cpp"]}
{"id": "C35", "title": "Tree Jacobian", "statement": "TreeJntToJacSolver returns the matrix that maps joint rates to the twist (derivative) of the segment's frame, with zero columns for joints not on the path; errors are reported without touching the output.", "quantifier": "for all trees, joint arrays, names", "why_tests_cant": "Derivatives along all curves in an unbounded structure.", "anchors": ["orocos_kdl/src/treejnttojacsolver.cpp"]}
{"id": "C36", "title": "Tree inverse dynamics", "statement": "TreeIdSolver_RNE returns for every moving joint of the tree the power, under unit rate of that joint, of (rate of momentum - weight - external wrench) summed over all bodies plus the rotor term; agrees with ChainIdSolver_RNE on a tree that is one chain; reports size and outdated-tree errors; and depends on no undefined behaviour.", "quantifier": "for all trees, trajectories, external wrenches, solver states", "why_tests_cant": "Unbounded trees and derivatives along all trajectories; undefined behaviour of an unused reference is invisible to tests.", "anchors": ["orocos_kdl/src/treeidsolver_recursive_newton_euler.cpp"]}
{"id": "C37", "title": "Rigid body inertia algebra", "statement": "RigidBodyInertia's action on twists is linear and self-adjoint, changes of frame, orientation and reference point agree with the transformed action F*(I*(F^-1*t)), kinetic energy is frame invariant and non-negative for physical parameters, addition adds actions, and the constructor recovers mass, centre of gravity and rotational inertia.", "quantifier": "for all inertias, twists, proper frames", "why_tests_cant": "Identities over a 10+6+6 dimensional continuum.", "anchors": ["orocos_kdl/src/rigidbodyinertia.cpp"]}
{"id": "C38", "title": "Articulated body inertia algebra", "statement": "ArticulatedBodyInertia built from a rigid body inertia acts on twists like it; addition, scaling and changes of frame, orientation and reference point agree with the transformed action for symmetric inertias and preserve symmetry.", "quantifier": "for all inertias, twists, proper frames", "why_tests_cant": "Identities over a 27+6+6 dimensional continuum.", "anchors": ["orocos_kdl/src/articulatedbodyinertia.cpp", "orocos_kdl/src/articulatedbodyinertia.hpp"]}
{"id": "C39", "title": "Recursive Newton-Euler is affine in accelerations and consistent with the dynamic parameters solver", "statement": "ChainIdSolver_RNE torques equal M(q)*qdd + C(q,qdot) + G(q) - J^T f_ext with M,C,G as returned by ChainDynParam, and equal the generalised forces required by the laws of Newton and Euler: the power of dP_i/dt - weight_i - external wrench_i of every body under the joint motions; size errors are reported exactly when a size is wrong.", "quantifier": "for all chains, states, external wrenches", "why_tests_cant": "Two different algorithms over unbounded chains must agree for all inputs.", "anchors": ["orocos_kdl/src/chainidsolver_recursive_newton_euler.cpp", "orocos_kdl/src/chaindynparam.cpp"]}
{"id": "C40", "title": "The joint space inertia matrix is symmetric and positive semidefinite", "statement": "ChainDynParam::JntToMass returns a symmetric matrix H with qdot^T H qdot equal to twice the kinetic energy of the moving segments plus the rotor inertia terms, hence non-negative, and positive definite for chains without massless degrees of freedom.", "quantifier": "for all chains with physical inertias, all q, qdot", "why_tests_cant": "Unbounded chains.", "anchors": ["orocos_kdl/src/chaindynparam.cpp: JntToMass"]}
{"id": "C41", "title": "LDL^T solver", "statement": "The LDL^T routine used by forward dynamics factors A = L D L^T with unit lower triangular L whenever the pivots are nonzero and returns x with A x = b.", "quantifier": "for all symmetric matrices of any size with nonzero pivots", "why_tests_cant": "All sizes.", "anchors": ["orocos_kdl/src/utilities/ldl_solver_eigen.cpp"]}
{"id": "C42", "title": "Forward dynamics inverts inverse dynamics", "statement": "The accelerations ChainFdSolver_RNE returns for torques tau are those for which ChainIdSolver_RNE returns tau, and conversely; for chains without massless degrees of freedom the solver always returns E_NOERROR; wrong sizes are reported and leave the output alone.", "quantifier": "for all chains, states, torques, external wrenches", "why_tests_cant": "Composition of three algorithms over unbounded chains.", "anchors": ["orocos_kdl/src/chainfdsolver_recursive_newton_euler.cpp: CartToJnt", "orocos_kdl/src/chainidsolver_recursive_newton_euler.cpp", "orocos_kdl/src/chaindynparam.cpp", "orocos_kdl/src/utilities/ldl_solver_eigen.cpp"]}
{"id": "C43", "title": "Energy: gravity torques are a gradient and the power balance holds", "statement": "The torques of JntToGravity are the gradient of the potential energy; along every trajectory the torques of ChainIdSolver_RNE together with the external wrenches deliver exactly the rate of change of kinetic plus potential energy; the Coriolis torques deliver the rate of change of the kinetic energy at constant joint rates.", "quantifier": "for all chains, trajectories, external wrenches", "why_tests_cant": "Statement about derivatives along arbitrary trajectories.", "anchors": ["orocos_kdl/src/chainidsolver_recursive_newton_euler.cpp", "orocos_kdl/src/chaindynparam.cpp: JntToGravity, JntToCoriolis"]}
{"id": "C44", "title": "Forward dynamics solver after a chain change", "statement": "After the chain was changed and updateInternalDataStructures() was called, ChainFdSolver_RNE behaves like a freshly constructed solver.", "quantifier": "for all chains before and after the change, all arguments", "why_tests_cant": "Pairs of chains; the failure is a stale member of a member.", "anchors": ["orocos_kdl/src/chainfdsolver_recursive_newton_euler.cpp: updateInternalDataStructures"]}
{"id": "C45", "title": "Hybrid dynamics obeys the equations of motion and Gauss' principle", "statement": "ChainHdSolver_Vereshchagin::CartToJnt returns the only joint accelerations that satisfy the equations of motion (as inverse dynamics states them) under the feed-forward torques, external wrenches and constraint forces alfa*nu on the tip; the tip meets the acceleration constraints whenever they can be met; the accelerations are those nearest to the free motion in the metric of the mass matrix; without constraints the solver agrees with forward dynamics; and constraint_torques is the command that brings the motion about.", "quantifier": "for all chains, states, torques, wrenches, constraint directions and constraint accelerations", "why_tests_cant": "Continuum of states and constraint directions; the coupling matrix loses rank at particular configurations only; agreement with two other solvers on single inputs says nothing about optimality.", "anchors": ["orocos_kdl/src/chainhdsolver_vereshchagin.cpp:31-365", "orocos_kdl/src/chainhdsolver_vereshchagin.hpp:238-261"]}
{"id": "C46", "title": "External wrench estimator converges to the wrench on the end effector", "statement": "Each call of ChainExternalWrenchEstimator::JntToExtWrench moves the estimated joint torque by gain*dt of its distance to the torque that is missing in the equation of motion, filters it, and returns the minimum-norm least-squares wrench on the end effector, in its frame, that causes it; for a constant external torque the estimate converges whenever gain*dt < 2(1+c)/(1-c) for the filter constant c; for a robot held still the wrench converges to the one applied if the Jacobian has full rank; setInitialMomentum makes the estimation start from zero.", "quantifier": "for all chains, gains, filter constants, sampling frequencies, sequences of samples and wrenches", "why_tests_cant": "Limit over infinitely many samples; a stability limit that depends on two parameters; the wrong first sample shows up only for a robot that moves when the estimation starts.", "anchors": ["orocos_kdl/src/chainexternalwrenchestimator.cpp:25-210", "orocos_kdl/src/chainexternalwrenchestimator.hpp:34-110"]}
{"id": "C47", "title": "Joint-limited Newton-Raphson IK respects limits", "statement": "Every joint array returned after at least one update by ChainIkSolverPos_NR_JL lies within [q_min,q_max]; a success code implies the forward kinematics error is below eps; the constructor without limits must not restrict the joints.", "quantifier": "for all chains, targets, initial guesses, limit vectors, velocity solvers", "why_tests_cant": "Iteration with an arbitrary inner solver.", "anchors": ["orocos_kdl/src/chainiksolverpos_nr_jl.cpp"]}
{"id": "C48", "title": "Newton-Raphson IK success is sound", "statement": "ChainIkSolverPos_NR returns NOERROR only if the forward kinematics of q_out matches the target within eps, E_MAX_ITERATIONS_EXCEEDED only after maxiter updates, propagates inner errors, and getError() equals the returned code.", "quantifier": "for all chains, targets, guesses, inner solvers", "why_tests_cant": "Iteration with an arbitrary inner solver.", "anchors": ["orocos_kdl/src/chainiksolverpos_nr.cpp"]}
{"id": "C49", "title": "Pseudo-inverse velocity solver", "statement": "ChainIkSolverVel_pinv returns the minimum norm least-squares joint velocity for the Jacobian with singular values below eps discarded; with E_NOERROR (six joints or more) the requested twist is achieved exactly; E_CONVERGE_PINV_SINGULAR is returned exactly when the Jacobian has lost rank; a failed decomposition gives E_SVD_FAILED and zero velocities.", "quantifier": "for all chains, configurations, twists, eps > 0 and all decompositions that keep their promise", "why_tests_cant": "Rank and optimality over all matrices; the unsigned subtraction in the code test only misbehaves for few joints.", "anchors": ["orocos_kdl/src/chainiksolvervel_pinv.cpp:62"]}
{"id": "C50", "title": "Weighted damped least squares solver", "statement": "ChainIkSolverVel_wdls returns Wq y with y minimising |Wx J Wq y - Wx v|^2 plus damping along the singular directions below eps only; with E_NOERROR the requested twist is achieved exactly; the result is always finite.", "quantifier": "for all chains, configurations, twists, weights and lambda", "why_tests_cant": "Optimality over all matrices; singular configurations with lambda = 0 and short chains are corner cases.", "anchors": ["orocos_kdl/src/chainiksolvervel_wdls.cpp:28-216"]}
{"id": "C51", "title": "Null space optimising solver", "statement": "ChainIkSolverVel_pinv_nso returns the pseudo-inverse velocity plus a term in the null space of the Jacobian that does not increase the weighted distance to the optimal position; setters check sizes.", "quantifier": "for all chains, configurations, twists, weights >= 0, alpha >= 0", "why_tests_cant": "Null space membership and descent over all matrices.", "anchors": ["orocos_kdl/src/chainiksolvervel_pinv_nso.cpp:27-186"]}
{"id": "C52", "title": "Levenberg-Marquardt position solver", "statement": "ChainIkSolverPos_LMA::CartToJnt carries out the Levenberg-Marquardt iteration (damped least-squares step, gain ratio, damping update) on the weighted pose error with the exact geometric Jacobian; it returns E_NOERROR exactly if the returned joint values meet the tolerance, the weighted error never grows, the vector J^T d whose size ends the search is the gradient of the squared weighted error, and the diagnostic members (lastDifference, lastTransDiff, lastRotDiff, lastSV, lastNrOfIter) hold what their documentation says.", "quantifier": "for all chains, start positions, goals, weights, tolerances and iteration limits, and for every SVD routine meeting its specification", "why_tests_cant": "Whole runs of an iterative algorithm over real-valued inputs; optimality of each step over all alternatives.", "anchors": ["orocos_kdl/src/chainiksolverpos_lma.cpp:40-330", "orocos_kdl/src/chainiksolverpos_lma.hpp"]}
{"id": "C53", "title": "Online position solver for trees", "statement": "TreeIkSolverPos_Online::CartToJnt makes one step towards the goals: twists handed to the velocity solver belong to the goals of this call and are scaled into the Cartesian limits, joint rates are scaled by the largest common factor in [0,1] that meets all rate limits, the result lies within the position limits, and failures leave q_out = q_in with the documented code.", "quantifier": "for all goals, joint values, limits, and all inner forward and inverse velocity solvers", "why_tests_cant": "Continuum of twists and limits; the faulty scaling cases depend on which component is longer; the stale twist needs a sequence of calls.", "anchors": ["orocos_kdl/src/treeiksolverpos_online.cpp:29-190"]}
{"id": "C54", "title": "Singular value decomposition", "statement": "svd_eigen_HH and SVD_HH::calculate return code 0 with A = U diag(S) V^T, V orthogonal, columns of U orthonormal, S non-negative (and sorted for svd_eigen_HH), and code -2 exactly if the number of iterations was exceeded; no division by zero and no access outside the arrays for any matrix.", "quantifier": "for all matrices of all sizes, all thresholds, all numbers of iterations and all outcomes of the rounding-dependent comparisons", "why_tests_cant": "Faults sit on a measure-zero set (a value of exactly -2), at extreme scales, or in the unused code -2; random tests on well-scaled matrices never meet them.", "anchors": ["orocos_kdl/src/utilities/svd_eigen_HH.cpp:26-269", "orocos_kdl/src/utilities/svd_HH.cpp:60-275"]}
{"id": "C55", "title": "Rectangular velocity profile", "statement": "SetProfile and SetProfileDuration give a profile with Pos(0)=start, Pos(Duration)=end, Vel the derivative of Pos, and |Vel| at most the maximum velocity.", "quantifier": "for all start/end positions, durations, maxima", "why_tests_cant": "Continuum with sign cases.", "anchors": ["orocos_kdl/src/velocityprofile_rect.cpp"]}
{"id": "C56", "title": "Trapezoidal velocity profile", "statement": "Pos is continuous with Pos(0)=start and Pos(Duration)=end, Vel is its derivative and continuous, |Vel| <= maxvel and |Acc| <= maxacc, no rest-to-rest motion within these bounds is faster, SetProfileDuration and SetProfileVelocity keep the bounds while stretching the duration, and Clone() copies.", "quantifier": "for all start/end positions and positive maxima", "why_tests_cant": "Continuum, both triangular and trapezoidal regimes, both signs.", "anchors": ["orocos_kdl/src/velocityprofile_trap.cpp"]}
{"id": "C57", "title": "Half trapezoidal velocity profile", "statement": "SetProfile and SetProfileDuration of VelocityProfile_TrapHalf connect the two positions, leave or reach one end at rest, pass the other end at the largest reachable velocity, Vel is the derivative of Pos, and the velocity and acceleration limits are kept.", "quantifier": "for all start/end positions, durations, positive maxima, both variants", "why_tests_cant": "Continuum with several regimes; the failing regime needs a short distance and a long duration.", "anchors": ["orocos_kdl/src/velocityprofile_traphalf.cpp"]}
{"id": "C58", "title": "Spline velocity profile meets its boundary conditions", "statement": "The linear, cubic and quintic SetProfileDuration variants produce Pos, Vel, Acc that meet the given boundary values at 0 and at the duration, and Vel, Acc are the derivatives of Pos, Vel.", "quantifier": "for all boundary values and durations", "why_tests_cant": "Polynomial identities over an eight-dimensional continuum.", "anchors": ["orocos_kdl/src/velocityprofile_spline.cpp"]}
{"id": "C59", "title": "Dirac velocity profile", "statement": "Without a duration Pos jumps from start to end at time zero and Vel and Acc are zero as documented; with a duration the motion is linear and Vel its derivative.", "quantifier": "for all positions, durations and times", "why_tests_cant": "Continuum of times; a throwing function is easily missed when only Pos is sampled.", "anchors": ["orocos_kdl/src/velocityprofile_dirac.cpp", "orocos_kdl/src/velocityprofile_dirac.hpp: documentation"]}
{"id": "C69", "title": "Frame::Integrate advances by the twist", "statement": "F.Integrate(t, f) with t expressed in F moves the origin by M v/f and turns the frame about t.rot by the angle |t.rot|/f; proper frames stay proper.", "quantifier": "for all frames, twists and sampling frequencies", "why_tests_cant": "Thresholds on the angle of one step and on the length of the axis hide errors for slow rotations.", "anchors": ["orocos_kdl/src/frames.inl:624-634"]}
{"id": "C60", "title": "Path_Line is the straight interpolation between two frames", "statement": "Pos(0) is the start frame, Pos(PathLength()) the end frame, the origin moves on a straight line with the orientation turning about one fixed axis, Vel(s,ds) is the twist of Pos(s(t)) and Acc its derivative, neither the linear speed nor eqradius times the rotational speed exceeds |ds| and one of them equals it, LengthToS inverts the linear scale, Clone copies and the constructor from a twist agrees with its documentation; Path_Point rests at its frame with length zero.", "quantifier": "for all start and end frames, equivalent radii and motions s(t)", "why_tests_cant": "Continuum of frames and the choice between the linear and the rotational scale.", "anchors": ["orocos_kdl/src/path_line.cpp"]}
{"id": "C61", "title": "Path_Circle follows the documented arc", "statement": "Pos stays at constant distance from the centre in the plane of centre, start and V_base_p, starts at the start frame, ends after the angle alpha with the end orientation, Vel and Acc are its derivatives, degenerate input is rejected with the two documented exceptions, and Clone copies the path.", "quantifier": "for all frames, centres, points, angles and radii", "why_tests_cant": "Continuum with rejection thresholds; Clone is rarely compared point by point.", "anchors": ["orocos_kdl/src/path_circle.cpp"]}
{"id": "C62", "title": "Path_Composite runs through its segments", "statement": "PathLength is the sum of the lengths, Pos(s) is the position of the segment containing s at the relative length whatever was queried before, ends are the ends of the first and last segment, Vel and Acc are those of the segment independently of earlier calls, arguments outside the path fail the assertions.", "quantifier": "for all lists of segments and all histories of queries", "why_tests_cant": "The const members keep a cache, so results depend on the call history; histories are unbounded.", "anchors": ["orocos_kdl/src/path_composite.cpp"]}
{"id": "C63", "title": "Path_RoundedComposite rounds corners with tangent arcs", "statement": "Each inserted circle has the requested radius and touches both segments tangentially, the resulting path is continuous from the first to the last added point, infeasible corners are rejected with the documented exception, and Finish completes the path.", "quantifier": "for all sequences of frames, radii and equivalent radii", "why_tests_cant": "Geometry over a continuum with tolerance thresholds; the failing corners are small or nearly straight.", "anchors": ["orocos_kdl/src/path_roundedcomposite.cpp"]}
{"id": "C64", "title": "Path_Cyclic_Closed repeats its path", "statement": "PathLength is times the inner length, Pos, Vel and Acc are periodic and equal those of the inner path within each traversal, and the path is continuous across traversals when the inner path is closed.", "quantifier": "for all inner paths of positive length and all numbers of repetitions", "why_tests_cant": "All repetitions and path lengths.", "anchors": ["orocos_kdl/src/path_cyclic_closed.cpp"]}
{"id": "C65", "title": "Trajectories compose paths and velocity profiles", "statement": "A trajectory segment has Vel and Acc that are the twist of Pos and its derivative; a composite trajectory takes the sum of the durations, evaluates the member active at the given time, is continuous when the members join, stays at rest outside its duration, and can be emptied with Destroy and filled again.", "quantifier": "for all members, profiles and times", "why_tests_cant": "Continuum of times including those outside the duration; reuse after Destroy is a history property.", "anchors": ["orocos_kdl/src/trajectory_segment.cpp", "orocos_kdl/src/trajectory_composite.cpp", "orocos_kdl/src/trajectory_stationary.hpp"]}
{"id": "C66", "title": "Single axis rotational interpolation", "statement": "RotationalInterpolation_SingleAxis starts at the first rotation, reaches the second at the returned angle, stays a rotation matrix, Vel, Acc are its angular velocity and acceleration, and Clone copies it.", "quantifier": "for all pairs of rotation matrices and motions", "why_tests_cant": "Continuum of rotations; failures occur for small relative rotations only.", "anchors": ["orocos_kdl/src/rotational_interpolation_sa.cpp"]}
{"id": "C68", "title": "Jacobi SVD (Macie) and the Givens velocity solver", "statement": "svd_eigen_Macie multiplies the input by plane rotations until its columns are pairwise orthogonal within the threshold and returns U S V^T equal to the input with V orthogonal, restarts from the previous result, terminates, and ChainIkSolverVel_pinv_givens turns this into the least squares joint velocity at every configuration and every call.", "quantifier": "for all Jacobians, thresholds, previous results and call histories", "why_tests_cant": "Termination and rank deficient input; the result depends on the previous call, so a test of one call says nothing about the next.", "anchors": ["orocos_kdl/src/utilities/svd_eigen_Macie.cpp:24-160", "orocos_kdl/src/chainiksolvervel_pinv_givens.cpp:26-122"]}
{"id": "C70", "title": "Weighted damped velocity solver for trees", "statement": "TreeIkSolverVel_wdls::CartToJnt stacks the exact Jacobians and desired twists of all endpoints and returns the weighted norm of the twists with qdot = Wq x, x the unique minimiser of |Wy(J Wq x - d)|^2 + lambda^2 |x|^2; the documented meaning of weights, sizes and return codes holds, and the result is finite.", "quantifier": "for all trees, endpoints, joint values, twists, weights, damping factors and SVD routines meeting their specification", "why_tests_cant": "Optimality over all joint velocities; division by zero occurs only for exactly singular or redundant trees with the default damping.", "anchors": ["orocos_kdl/src/treeiksolvervel_wdls.cpp:12-112"]}
{"id": "C71", "title": "Newton-Raphson position solver for trees", "statement": "TreeIkSolverPos_NR_JL::CartToJnt iterates velocity solver steps clamped to the joint limits; a non-negative return value is the weighted distance of the endpoint frames at q_out to their goals and below eps, otherwise -2 (unknown endpoint), -3 (maxiter) or the velocity solver error is returned, and q_out respects the joint limits.", "quantifier": "for all trees, goals, limits, tolerances, iteration limits and call histories", "why_tests_cant": "Whole runs of an iteration over real-valued inputs and sequences of calls sharing solver state.", "anchors": ["orocos_kdl/src/treeiksolverpos_nr_jl.cpp:27-78"]}
{"id": "C72", "title": "Runge-Kutta integration of the forward dynamics", "statement": "RK4Integrator advances positions and velocities by one step of the classical fourth-order Runge-Kutta method for q' = v, v' = FD(q, v), independently of the previous contents of its work arrays, and does not move on when the forward dynamics solver reports an error. With arrays that are long enough it always comes back if the solver does.", "quantifier": "for all chains, states, torques, wrenches and step sizes", "why_tests_cant": "Order conditions over all states and step sizes; no test in the repository calls it.", "anchors": ["orocos_kdl/src/chainfdsolver_recursive_newton_euler.cpp:95-136"]}
{"id": "C67", "title": "Text input and output of frames", "statement": "Vectors, rotations, frames, twists, wrenches and their planar counterparts written with << are read back with >> up to the rounding of the number format; the documented forms (Zero, Identity, Euler, RPY, Rot, DH; spaces, newlines and comments anywhere) are read as documented; for any other stream >> throws a documented exception or leaves the stream failed, and neither writes outside its buffers nor leaves the trace unbalanced.", "quantifier": "for all objects, all streams (any characters and flags) and all number formats that read back what they write", "why_tests_cant": "All character sequences, including those with comments next to each other, long words and streams that have failed before.", "anchors": ["orocos_kdl/src/frames_io.cpp:30-309", "orocos_kdl/src/utilities/utility_io.cxx:70-208", "orocos_kdl/src/utilities/error_stack.cxx:30-69", "orocos_kdl/src/frames_io.hpp:20-110"]}
{"id": "C73", "title": "Text input and output of paths, profiles and trajectories", "statement": "Paths, velocity profiles, trajectories and joint arrays that have been written with Write or << are read back by Path::Read, VelocityProfile::Read, Trajectory::Read and >> as the same object, up to the rounding of the number format, and what follows them in the stream is left.", "quantifier": "for all objects, nested to any depth, all surrounding texts and number formats", "why_tests_cant": "Objects nest without bound, and writer and reader are implemented apart from each other.", "anchors": ["orocos_kdl/src/path.cpp:60-166", "orocos_kdl/src/velocityprofile.cpp:53-95", "orocos_kdl/src/trajectory.cpp:56-75", "orocos_kdl/src/path_circle.cpp:158-169", "orocos_kdl/src/rotational_interpolation.cpp:51-70", "orocos_kdl/src/kinfam_io.cpp:25-130"]}
{"id": "C74", "title": "Hash codes", "statement": "The std::hash specialisations of the frame types combine the hash codes of all components in order; objects that compare equal with == have equal hash codes, as unordered containers require.", "quantifier": "for all objects and all hash functions of doubles", "why_tests_cant": "The requirement relates all pairs of equal objects; operator== is a comparison within a tolerance, so that pairs near a rounding boundary of the hash decide.", "anchors": ["orocos_kdl/src/utilities/hash_combine.h:20-24", "orocos_kdl/src/frames.hpp:1262-1352", "orocos_kdl/src/frames.inl:1275-1343", "orocos_kdl/src/frames.cpp:430-444"]}
{"id": "C75", "title": "Diagonal stiffness", "statement": "Stiffness times twist is linear in both and self-adjoint, Inverse undoes it, non-negative entries never yield negative work, stiffnesses in parallel add, and constructors and operator[] access the documented entries.", "quantifier": "for all stiffnesses, twists and wrenches", "why_tests_cant": "Algebraic laws over all real entries; zero entries (the default) make Inverse divide by zero.", "anchors": ["orocos_kdl/src/stiffness.hpp:36-113"]}
{"id": "C77", "title": "Random objects", "statement": "random and posrandom give objects whose components lie in (-1,1) respectively are positive, rotations are proper, every component is drawn independently and every value of the range is possible.", "quantifier": "for all sequences of values of rand()", "why_tests_cant": "Quantifies over all sequences of random numbers.", "anchors": ["orocos_kdl/src/utilities/utility.h:274-280", "orocos_kdl/src/frames.inl:1214-1270", "orocos_kdl/src/framevel.hpp:45-52", "orocos_kdl/src/framevel.hpp:372-407", "orocos_kdl/src/stiffness.hpp:102-113"]}
{"id": "C76", "title": "Robots of the models directory", "statement": "The chains built by Puma560 and KukaLWR_DHnew have the documented number of joints, their forward kinematics is the product of the Denavit-Hartenberg transformations of their parameters, their links are physical bodies and their mass matrices positive definite, so that the forward dynamics can be solved in every state.", "quantifier": "for all joint positions, velocities, torques and external wrenches", "why_tests_cant": "Holds in every configuration; the first link of the Puma has no mass, so positive definiteness depends on the coupling of the joints.", "anchors": ["orocos_kdl/models/puma560.cpp:27-53", "orocos_kdl/models/kukaLWR_DHnew.cpp:26-81", "orocos_kdl/src/segment.hpp:75", "orocos_kdl/src/joint.hpp:77"]}
{"id": "C78", "title": "Ownership of paths, profiles and trajectories", "statement": "A destructor frees exactly the objects handed over with aggregate = true, each once; Clone makes an object that owns all that was made for it and shares nothing that is owned, so original and clone can be deleted in either order; Add hands the part over; Path::Read and Trajectory::Read return such an object or throw and leave nothing behind.", "quantifier": "for all object graphs of any depth, all inputs and all points at which an exception can occur", "why_tests_cant": "A leak or a double delete is not visible in results; exceptions can occur at every step of nested reads and clones.", "anchors": ["orocos_kdl/src/path_line.cpp:149-165", "orocos_kdl/src/path_circle.cpp:49-98", "orocos_kdl/src/path_circle.cpp:140-156", "orocos_kdl/src/path_composite.cpp:82-160", "orocos_kdl/src/path_cyclic_closed.cpp:73-82", "orocos_kdl/src/path_roundedcomposite.cpp:61-200", "orocos_kdl/src/path.cpp:60-165", "orocos_kdl/src/trajectory.cpp:56-74", "orocos_kdl/src/trajectory_segment.hpp:90-95", "orocos_kdl/src/trajectory_segment.cpp:92-100", "orocos_kdl/src/trajectory_composite.cpp:88-123", "orocos_kdl/src/utilities/scoped_ptr.hpp:38-60"]}
{"id": "C79", "title": "Python bindings: element access and pickling", "statement": "Through the Python bindings x[i] reads and writes component i, an index outside the object raises an exception and leaves it unchanged, iteration yields the components in order, accessors report indices and names that do not exist, and pickle.loads(pickle.dumps(x)) gives back x.", "quantifier": "for all objects of the bound classes, all Python integers as indices and all state tuples", "why_tests_cant": "Indices outside the range and rotations near the gimbal lock form infinite sets; the pickled state of a rotation holds three of nine numbers.", "anchors": ["python_orocos_kdl/PyKDL/frames.cpp:49-111", "python_orocos_kdl/PyKDL/frames.cpp:127-187", "python_orocos_kdl/PyKDL/frames.cpp:202-262", "python_orocos_kdl/PyKDL/frames.cpp:282-300", "python_orocos_kdl/PyKDL/frames.cpp:376-392", "python_orocos_kdl/PyKDL/frames.cpp:408-475", "python_orocos_kdl/PyKDL/framevel.cpp:140-155", "python_orocos_kdl/PyKDL/framevel.cpp:311-326", "python_orocos_kdl/PyKDL/kinfam.cpp:108-122", "python_orocos_kdl/PyKDL/kinfam.cpp:176-202", "python_orocos_kdl/PyKDL/kinfam.cpp:220-280", "python_orocos_kdl/PyKDL/dynamics.cpp:49-66"]}
{"id": "C80", "title": "Storage of joint-space containers", "statement": "Constructors and resize of JntArray, JntArrayVel, JntArrayAcc, Jacobian and JntSpaceInertiaMatrix give objects of the requested size whose elements are all zero, as documented; SetToZero clears them; sums, differences and multiples may be computed in place, and Multiply(H, v, dest) gives the product.", "quantifier": "for all sizes, contents and groupings of the coefficients by vectorisation", "why_tests_cant": "Stale and uninitialised values often happen to be zero; aliasing effects depend on the size and the vector width.", "anchors": ["orocos_kdl/src/jntarray.cpp:26-109", "orocos_kdl/src/jntarray.hpp:70-110", "orocos_kdl/src/jntarrayvel.cpp:27-46", "orocos_kdl/src/jntarrayacc.cpp:26-51", "orocos_kdl/src/jacobian.cpp:26-57", "orocos_kdl/src/jntspaceinertiamatrix.cpp:26-107", "orocos_kdl/src/jntspaceinertiamatrix.hpp:84-108"]}
{"id": "C81", "title": "Display of trees, chains, matrices, velocities and dual numbers", "statement": "tree2str and << of a tree show every segment exactly once in depth-first order with its joint number, tree2str indented according to the depth with children in order of addition, and end for every tree; the text of a chain determines, up to rounding, what is shown of its segments if names contain no colon; the text of a Jacobian or inertia matrix determines size and rounded entries if the numbers fit their fields; the text of a velocity, acceleration or dual number determines its rounded parts.", "quantifier": "for all trees, chains, matrices, separators and number formats that can be read back", "why_tests_cant": "Quantifies over trees of every shape and all pairs of chains and matrices.", "anchors": ["orocos_kdl/src/kinfam_io.cpp:27-131", "orocos_kdl/src/joint.hpp:169-193", "orocos_kdl/src/framevel_io.hpp:29-48", "orocos_kdl/src/frameacc_io.hpp:32-51", "orocos_kdl/src/utilities/rall1d_io.h:28-32", "orocos_kdl/src/utilities/rall2d_io.h:29-33"]}
{"id": "C82", "title": "Nested dual numbers and gradients", "statement": "Rall1d nested n times in itself, as its documentation proposes and rallNd.h sets up, holds behind k gradient members the k-th derivative: every operator and function of rall1d.h turns numbers holding the derivatives of f and g into one holding the derivatives up to order n of the combined function. With vectors as gradient type every operation gives value and gradient of the combined function of N variables.", "quantifier": "for all depths n and numbers of variables N, all n times differentiable functions and all arguments in the domain of the operation", "why_tests_cant": "The n-th derivative of a composition has a number of terms that grows exponentially with n, and the depth is unbounded.", "anchors": ["orocos_kdl/src/utilities/rall1d.h:40-48", "orocos_kdl/src/utilities/rall1d.h:62-160", "orocos_kdl/src/utilities/rall1d.h:215-480", "orocos_kdl/src/utilities/rallNd.h:14-52"]}
{"id": "C83", "title": "Statistics of the Levenberg-Marquardt demonstration", "statement": "For every chain and every list of trials (joint values that give the goal, start values), the demonstration program runs without undefined behaviour and its report is the one of the calls it made: the number of successes, the number of trials with each failure code (so that the counts add up to the number of trials), the sum, minimum and maximum of the iteration counts, and the minimum and maximum of the weighted, translational and rotational differences. display_jac, which it calls after a failure, shows the singular values of the Jacobian at the given joint values and leaves the results of the last call unchanged.", "quantifier": "all well-formed chains, all lists of trials of the right size, all contents of the solver's uninitialised members, all decompositions that meet the SVD specification", "why_tests_cant": "The program prints its statistics for random trials and checks nothing; wrong extremes or missing counts look plausible.", "anchors": ["orocos_kdl/examples/chainiksolverpos_lma_demo.cpp:71-171", "orocos_kdl/src/chainiksolverpos_lma.cpp:177-184"]}
{"id": "C84", "title": "scoped_ptr owns its object", "statement": "Any program built from new, delete, construction and destruction of scoped_ptr variables, reset, release, swap and operator->, that passes on only raw pointers it owns, runs without undefined behaviour: at every moment each object created so far lives and has exactly one owner (one scoped_ptr or the program) or was deleted exactly once; when all variables are out of scope and the program owns nothing, nothing is left. release hands out the pointer without deleting; reset stores the new pointer before the destructor of the old object runs; swap exchanges the pointers, also of a variable with itself.", "quantifier": "all sequences of operations on any number of variables and objects that respect ownership; all states for the single members", "why_tests_cant": "A double deletion or a leak needs a particular interleaving of operations and is silent in most runs.", "anchors": ["orocos_kdl/src/utilities/scoped_ptr.hpp:37-75"]}
{"id": "C85", "title": "Python programs and the lifetime of what solvers refer to", "statement": "In a Python program every call on a solver finds alive the chain and the solvers it was built from, and a change to a segment obtained with Chain.getSegment changes the chain, as with the C++ method of that name. The code satisfies the first part for programs that give up no object; a solver works on the chain object itself, so later changes to the chain reach it.", "quantifier": "all Python programs built from construction, assignment, del, addSegment, getSegment, setInertia and calls on any bound solver; all 13 solver classes", "why_tests_cant": "Use of a destroyed chain reads freed memory and often returns the old values, so a test passes by luck; test programs keep their chains in fixtures.", "anchors": ["python_orocos_kdl/PyKDL/kinfam.cpp:176-177", "python_orocos_kdl/PyKDL/kinfam.cpp:357-515", "python_orocos_kdl/PyKDL/dynamics.cpp:89", "orocos_kdl/src/chainiksolverpos_nr.hpp:82-86", "orocos_kdl/src/chainfksolverpos_recursive.hpp:48"]}
{"id": "C86", "title": "Exception classes, their types and what handlers take", "statement": "Every exception class that names a particular error has its own positive GetType() and its own description; an Error_IO reports the type and message it was given; catch (Error_IO&) takes every exception that reading an object from text can throw; Path_RoundedComposite reports infeasible roundings by the documented types 3101 to 3106, the first cause that applies. The code satisfies this except that Error_IO forgets its type and that the exceptions Error_MotionIO are not derived from Error_IO.", "quantifier": "all pairs of classes; all messages and types; all texts, stream states and number formats; all states of the rounded composite, points and angles", "why_tests_cant": "A wrong base class or an uninitialised member shows only in the error branch of a caller; GetType then returns whatever the memory held.", "anchors": ["orocos_kdl/src/utilities/error.h:56-243", "orocos_kdl/src/path_roundedcomposite.hpp:95-102", "orocos_kdl/src/path_roundedcomposite.cpp:61-130", "orocos_kdl/src/frames_io.cpp:129-310", "orocos_kdl/src/trajectory.cpp:56-72"]}
{"id": "C87", "title": "Eat with a description string", "statement": "Eat(is, descript) reads a text that follows the description, where a letter stands for itself in either case and a space for any sequence of blanks and comments, and leaves the rest; the first departure is reported as Unexpected or Not_A_Space, also at the end of the text. The code satisfies this except for descriptions that begin with a space, which it always rejects.", "quantifier": "all descriptions and all texts with any blanks and comments", "why_tests_cant": "The function is not called by any test or by the library itself; the interplay of the character counts of _EatSpace with comments needs texts of many shapes.", "anchors": ["orocos_kdl/src/utilities/utility_io.h:47-54", "orocos_kdl/src/utilities/utility_io.cxx:133-178", "orocos_kdl/src/utilities/utility_io.cxx:76-102"]}
{"id": "C88", "title": "Lagrange's equations and conservation of energy", "statement": "Along every motion, the torque that ChainIdSolver_RNE computes for joint k is the time derivative of the generalised momentum (the derivative of the kinetic energy with respect to the joint rate) minus the derivative of the kinetic energy plus the derivative of the potential energy with respect to the joint position, minus the generalised force of the external wrenches. The Coriolis torques of ChainDynParam are the Christoffel symbols of the matrix that JntToMass computes, applied to the rates. A motion whose accelerations are those of the forward dynamics solver, without torques and wrenches, keeps its total energy.", "quantifier": "all chains with valid joints and symmetric inertias, all twice differentiable motions, all gravity vectors and wrenches", "why_tests_cant": "An identity between derivatives over all configurations and a statement about solutions of a differential equation; tests compare a few torques with numbers.", "anchors": ["orocos_kdl/src/chainidsolver_recursive_newton_euler.cpp:45-98", "orocos_kdl/src/chaindynparam.cpp:61-147", "orocos_kdl/src/chainfdsolver_recursive_newton_euler.cpp:51-92"]}
{"id": "C89", "title": "Codes, descriptions and the remembered error of the solvers", "statement": "Every solver function returns one of the codes documented for it; the codes of a class are different numbers, failures are negative, degraded successes positive, success is zero. strError of the class of the solver knows every code the function can return, gives different codes different texts, says No error exactly for success and UNKNOWN ERROR exactly for numbers that are no code. getError gives the code of the last call. The code violates the last claim: JntToCoriolis and JntToGravity, setLockedJoints of the solver for the derivative of the Jacobian, the overloads of JntToCart for vectors and successful calls of ChainIkSolverPos_NR do not store their code. The overloads for vectors report wrong sizes with the code for missing convergence.", "quantifier": "all solvers derived from SolverI, all calls with any arguments and any state, all sequences of calls", "why_tests_cant": "A relation between every return statement of seventeen classes and the tables of strError; tests compare some codes and never read getError after a sequence of calls on one object.", "anchors": ["orocos_kdl/src/solveri.hpp:93-141", "orocos_kdl/src/chaindynparam.cpp:130-147", "orocos_kdl/src/chainjnttojacdotsolver.cpp:227-247", "orocos_kdl/src/chainfksolverpos_recursive.cpp:60-92", "orocos_kdl/src/chainfksolvervel_recursive.cpp:68-110", "orocos_kdl/src/chainiksolverpos_nr.cpp:65-79", "orocos_kdl/src/chainiksolverpos_lma.cpp:317-322", "orocos_kdl/src/chainexternalwrenchestimator.cpp:204-213"]}
{"id": "C90", "title": "The trajectory example runs to its end", "statement": "examples/trajectory_example.cpp ends regularly: none of its calls of Add throws, no assertion fails, the sampling loop stops. The path is continuous, runs from the first to the last of the six frames in eight segments (line, line, circle, line, circle, line, circle, line) and is travelled with velocity at most 0.5 and acceleration at most 0.1. The file holds one line (the matrix row by row) for each time 0, 0.1, 0.2, ... up to the end of the motion; line k is the frame of the path at the position of the profile at time k/10; the first one is the start, neighbouring positions are at most 0.05 apart and the last one is within 0.001 of the goal. The report gives start, end and kind of each segment without gaps, the composite trajectory lasts one second longer, and every object created is destroyed exactly once.", "quantifier": "the single run of the program, all its samples; the memory part for all corner sequences without exception and all heaps", "why_tests_cant": "The file is only plotted by a Matlab script; whether the corners fit, the number of samples and the distance between samples depend on real inequalities that a run in floating point does not settle for the ideal program.", "anchors": ["orocos_kdl/examples/trajectory_example.cpp:25-117", "orocos_kdl/src/path_roundedcomposite.cpp:70-144", "orocos_kdl/src/path_composite.cpp:54-110", "orocos_kdl/src/velocityprofile_trap.cpp:61-89", "orocos_kdl/src/trajectory_composite.cpp:88-105"]}
{"id": "C91", "title": "Columns of a rotation and the geometry example", "statement": "UnitX/UnitY/UnitZ read and write exactly the column they name; no single column of a rotation can be exchanged without leaving the rotations, and three columns form a rotation exactly when the first two are orthonormal and the third is their vector product. The program examples/geometry.cpp prints for its vectors the values its text announces; the twelve matrices it builds are rotations, and the unit vectors it prints for r8 are the columns of r8.", "quantifier": "For all matrices, rotations and vectors; the program has no input", "why_tests_cant": "The setters share their name with the getters, so a call that overwrites a column looks like one that reads it, and the printed numbers are unit vectors in any case. That no replaced column leaves a rotation is a statement about all vectors.", "anchors": ["orocos_kdl/src/frames.hpp:495-545", "orocos_kdl/examples/geometry.cpp:5-151", "orocos_kdl/src/frames.cpp:303-332", "orocos_kdl/src/frames.inl:508-524"]}
{"id": "C92", "title": "The robot programs select the line asked for and compute the torques in two ways alike", "statement": "kukaLWRtestHCG.cpp and kukaLWRtestDHnew.cpp read line n of three files of joint positions, velocities and accelerations, n being the experiment number typed in, print these lines, and append pose and torques under the number n; a number without a line and unreadable data are reported. The torques of the recursive Newton-Euler solver and H*qdotdot+C+G agree. puma560test.cpp computes pose and torques of the joint values typed in, joint by joint.", "quantifier": "For all files, line numbers, states, and for the comparison of the torques for all chains", "why_tests_cant": "The files are not part of the repository and the loop over them ends differently depending on whether the last line is followed by a line break, whether the data are complete and whether the number occurs; agreement of the two computations for all states is an identity of real functions.", "anchors": ["orocos_kdl/models/kukaLWRtestHCG.cpp:20-194", "orocos_kdl/models/kukaLWRtestDHnew.cpp:17-165", "orocos_kdl/models/puma560test.cpp:11-67", "orocos_kdl/src/jntspaceinertiamatrix.cpp:99-102"]}
{"id": "C93", "title": "Python attributes are views, copies are independent", "statement": "In Python, reading an attribute (force, torque, vel, rot, M, p, v, R, w) of a frame-like object gives a view: it shows every later change of the object, and changing it changes the object. Assigning an attribute copies the value, accepts exactly values of the class of the attribute and leaves the other attributes alone. Cls(x), copy.copy, copy.deepcopy and the operators give independent objects. += and -= between objects of one class work in place with the value of the operator, so that all views see them; *=, /= and += between different classes give the variable a new object, while on an attribute they always change the object. No statement changes what a variable shows unless it goes through a variable of the same object at an overlapping place, and no view ever dangles.", "quantifier": "For all programs of these statements over any number of variables, all values and nested attributes", "why_tests_cant": "Aliasing is a statement about all later statements of all programs; the tests of the bindings check values directly after construction and never keep an attribute while changing its object.", "anchors": ["python_orocos_kdl/PyKDL/frames.cpp:125-126", "python_orocos_kdl/PyKDL/frames.cpp:200-201", "python_orocos_kdl/PyKDL/frames.cpp:406-407", "python_orocos_kdl/PyKDL/frames.cpp:69-94", "python_orocos_kdl/PyKDL/framevel.cpp:83-124", "python_orocos_kdl/PyKDL/framevel.cpp:173-213", "python_orocos_kdl/PyKDL/framevel.cpp:255-302", "python_orocos_kdl/PyKDL/framevel.cpp:339-376"]}
{"id": "C94", "title": "Energy, inertia and Lagrange's equations of a tree", "statement": "Along every motion of a tree the torques of TreeIdSolver_RNE do the work that changes kinetic plus potential energy, together with the external wrenches; they are Lagrange's equations of that energy, joint by joint; the change of torque with acceleration is a symmetric form, non-negative for physical bodies and positive if every joint moves a body or a rotor, so that different accelerations need different torques; torques at rest are the gradient of the potential; an external wrench changes the torques by the work it does; and a motion under zero torques conserves energy.", "quantifier": "for all trees built by addSegment and addChain, smooth trajectories, gravity vectors, external wrenches and earlier states of the solver", "why_tests_cant": "Energy conservation and symmetry of the inertia are statements over all branches, configurations and trajectories with derivatives; tests compare single torques on one tree.", "anchors": ["orocos_kdl/src/treeidsolver_recursive_newton_euler.cpp:28-137"]}
{"id": "C95", "title": "Infinities and NaN in the position kinematics and in the Newton-Raphson solvers", "statement": "Equal holds only between finite numbers. The frame ChainFkSolverPos_recursive computes is finite exactly if all joint positions are. A Newton-Raphson solver that reports success returns finite joint positions that reach a finite target, whatever NaN or infinity its inverse velocity solver produced on the way; ChainIkSolverPos_NR_JL returns joint positions within their limits in every case. A joint position that is NaN stays NaN and is never reported as success. On finite values the loops compute what they compute over the reals.", "quantifier": "for all chains, inverse velocity solvers (also ones that return NaN or infinities), targets, initial joint positions (finite or not), tolerances and iteration numbers", "why_tests_cant": "Tests only use finite inputs and regular configurations; that no path through atan2, the norm or the comparisons turns a NaN into a finite number is a statement about all inputs.", "anchors": ["orocos_kdl/src/utilities/utility.h:268-273", "orocos_kdl/src/chainfksolverpos_recursive.cpp:34-60", "orocos_kdl/src/frames.inl:1129-1142", "orocos_kdl/src/frames.cpp:336-428", "orocos_kdl/src/frames.cpp:117-160", "orocos_kdl/src/chainiksolverpos_nr.cpp:42-72", "orocos_kdl/src/chainiksolverpos_nr_jl.cpp:62-110", "orocos_kdl/src/chainiksolvervel_wdls.cpp:116-220"]}
{"id": "C96", "title": "The Levenberg-Marquardt solver never takes up infinities or NaN", "statement": "Whatever the singular value decomposition, the increments and the gradients of ChainIkSolverPos_LMA::CartToJnt are, also NaN or infinite: the joint positions returned are the initial ones, or they are finite and so are the initial ones and the goal. E_NOERROR means finite joint positions whose weighted distance to a finite goal is below eps. A start or goal that is not finite gives an error code and the initial joint positions. The call always ends with one of four codes. Calls on finite numbers are instances.", "quantifier": "for all chains, weights, tolerances, iteration limits, initial joint positions and goals (finite or not) and all sequences of increments and gradients", "why_tests_cant": "Tests use finite inputs; that a NaN produced anywhere in the iteration is always rejected by the comparison rho > 0, and never enters the accepted joint positions, concerns every sequence of intermediate values.", "anchors": ["orocos_kdl/src/chainiksolverpos_lma.cpp:187-323", "orocos_kdl/src/chainiksolverpos_lma.cpp:141-156", "orocos_kdl/src/utilities/utility.h:204-209"]}
{"id": "C97", "title": "Joint limits of the tree solvers with infinities and NaN", "statement": "A joint position returned by the online position solver or by the iterating one for trees is within its limits, whatever the inverse velocity solver returned. In the online solver an infinite joint rate does not disturb the other joints; twists that are not finite are not made finite by the Cartesian limiter; and a value below the tolerance is returned only at finite joint positions.", "quantifier": "all joint positions, rates (finite, infinite, NaN), limits and tolerances; all inverse velocity solvers", "why_tests_cant": "NaN fails both limit comparisons, so it passes a clamp that a test with large finite rates shows to work. It arises when an infinite rate is multiplied by the scale factor 1/(1+inf) = 0, which at the same time is applied to every other joint; a test has to feed an infinite rate and look at both.", "anchors": ["orocos_kdl/src/treeiksolverpos_online.cpp:85-108", "orocos_kdl/src/treeiksolverpos_online.cpp:112-175", "orocos_kdl/src/treeiksolverpos_nr_jl.cpp:51-75"]}
{"id": "C98", "title": "Rounding errors of the forward kinematics", "statement": "In floating point arithmetic (every operation rounded with a relative error of at most u, sine and cosine with an absolute one of at most 2u, no overflow or underflow) the position solver returns the codes of the exact program and a frame that differs from the product of the ideal segment poses by at most an explicit bound, which grows linearly with the number of segments to first order and vanishes with u and the errors of the stored numbers: rotation part in the Frobenius norm, position in the Euclidean one. In double precision, with at most ten segments, joint arguments and origins up to 10 and tips up to 30, the rotation is within 1e-11 and the position within 1e-8. The computed rotation matrix is orthogonal up to a bound of the same size. Without rounding the program is the one of C25.", "quantifier": "all arithmetics that satisfy the standard model, all chains and joint values, all requested segments", "why_tests_cant": "A test compares two frames computed by the same library or against constants with a tolerance chosen by hand, at a few joint values on one machine; whether that tolerance holds for every input, every rounding mode and every libm is not something it can observe.", "anchors": ["orocos_kdl/src/chainfksolverpos_recursive.cpp:34-58", "orocos_kdl/src/segment.cpp:57", "orocos_kdl/src/joint.cpp:68-91", "orocos_kdl/src/frames.cpp:173-188", "orocos_kdl/src/frames.cpp:303-332", "orocos_kdl/src/frames.inl:406-410", "orocos_kdl/src/frames.inl:526-533"]}
{"id": "C99", "title": "Rounding errors of the Jacobian", "statement": "In floating point arithmetic (see C98) the Jacobian solver returns the codes of the exact program and a Jacobian whose columns differ from those of the ideal chain by at most explicit bounds, which vanish with the unit roundoff and the errors of the stored numbers, for the angular and the linear part, with and without locked joints. Along every motion of the joints the product of the computed Jacobian with the joint rates is therefore within the sum of the absolute rates times these bounds of the velocity of the end point of the ideal chain. In double precision, with at most ten segments within the ranges of C98 and scales of at most 1, the angular part is within 1e-11 and the linear part within 1e-6. Without rounding the program is the one of C27.", "quantifier": "all arithmetics that satisfy the standard model, all chains, joint values and locked joints, all requested segments, all motions", "why_tests_cant": "The columns are moved from segment to segment and every move adds the rounding errors of a difference of positions, a vector product and a sum; the usual test compares with a difference quotient with a tolerance many orders above these errors, so a loss of accuracy in a long chain passes it.", "anchors": ["orocos_kdl/src/chainjnttojacsolver.cpp:48-101", "orocos_kdl/src/jacobian.cpp:84-92", "orocos_kdl/src/segment.cpp:62-65", "orocos_kdl/src/joint.cpp:93-116", "orocos_kdl/src/frames.inl:66-71", "orocos_kdl/src/frames.inl:110-117", "orocos_kdl/src/frames.inl:302-306", "orocos_kdl/src/frames.inl:535-538"]}
{"id": "C100", "title": "Verdict of the inverse position solver in floating point arithmetic", "statement": "In floating point arithmetic (C98; the square root with a relative error of at most u, the arc tangent with an absolute one of at most 4u) a non-negative return code of the Newton-Raphson solver with joint limits is E_NOERROR, and then the pose of the ideal chain at the returned positions is near the goal: the position within 1.733 eps, the rotation (Frobenius norm) within 3.7 eps plus 1.8e-6, each plus the errors of the forward kinematics and of the goal. This holds for every velocity solver. In double precision with at most ten segments these errors are below 2e-8 and 1e-8. Conversely an initial guess whose ideal pose is within about eps of the goal in the position and eps/1.3 in the rotation is accepted at once. The band of 1.8e-6 comes from tolerances inside GetRotAngle and Norm and is real: however small eps is, a rotation off by 4e-7 is accepted. The joint limits hold exactly, whatever the rounding does. Without rounding the program is the one of C47.", "quantifier": "all arithmetics that satisfy the standard model, all chains, all velocity solvers, all initial guesses and goals, all tolerances up to 0.1", "why_tests_cant": "A test that calls the forward kinematics on the result uses the same arithmetic as the convergence test and cannot see the difference to the ideal pose; that a tolerance below 1e-6 has no effect on the rotation is only noticed by a test that asks for such a tolerance and knows the exact solution.", "anchors": ["orocos_kdl/src/chainiksolverpos_nr_jl.cpp:62-101", "orocos_kdl/src/frames.cpp:117-157", "orocos_kdl/src/frames.cpp:336-420", "orocos_kdl/src/frames.inl:1129-1142", "orocos_kdl/src/frames.inl:1032-1052", "orocos_kdl/src/utilities/utility.h:268-271"]}
{"id": "C101", "title": "Local convergence of the Newton-Raphson position solvers", "statement": "The forward kinematics differs from its linearisation by the library's Jacobian by at most half the reach of the chain times the square of the turnings, plus turnings times slides (position), and half the square of the turnings (rotation). A Newton step that solves J d = diff(pose, goal) therefore leaves a deviation of second order only, except that a rotation below the tolerance of GetRotAngle is not seen. Started within M of the goal (distance of the origins plus Frobenius distance of the rotations, M at most 0.1), with an inverse velocity solver that solves its equation near the start with displacements of at most K times the twist, and (L+3)K^2 M at most 1/4 where L bounds the reach, both Newton-Raphson solvers return E_NOERROR after at most 11 iterations, the joints stay within K(1.5 M + 4e-5) of the start, and the result reaches the goal: for the solver without limits, whose last step follows the test, up to (7L+21)K^2 eps^2 plus 1.8e-6 for the rotation; for the solver with limits, which must not bind near the start, the returned pose passes the termination test. The pseudo-inverse velocity solver meets the condition wherever the singular values of the Jacobian are at least 1/kappa and not below its threshold, with K = sigma sqrt(n) kappa, sigma bounding the scales of the joints.", "quantifier": "all chains, joint positions and displacements; all goals, starts, tolerances, inverse velocity solvers and constants within the stated conditions", "why_tests_cant": "A test runs the solver from a few starting points of one robot. That it converges from every start of a neighbourhood of known size within a known number of iterations, and that the tolerances of GetRotAngle cannot trap it in a cycle just outside the convergence test, are statements about all of them.", "anchors": ["orocos_kdl/src/chainiksolverpos_nr.cpp:42-71", "orocos_kdl/src/chainiksolverpos_nr_jl.cpp:62-101", "orocos_kdl/src/chainfksolverpos_recursive.cpp:34-58", "orocos_kdl/src/chainjnttojacsolver.cpp:48-101", "orocos_kdl/src/chainiksolvervel_pinv.cpp:62-131", "orocos_kdl/src/frames.inl:1129-1142", "orocos_kdl/src/frames.cpp:336-420"]}
{"id": "C102", "title": "Solver calls in place", "statement": "A solver computes the same whether or not its output array is the same object as one of its input arrays: ChainIdSolver_RNE::CartToJnt with torques = q, q_dot or q_dotdot, ChainDynParam::JntToCoriolis and JntToGravity with the output over an input, ChainFdSolver_RNE::CartToJnt with q_dotdot over q_dot or torques, ChainIkSolverVel_pinv_nso::CartToJnt with qdot_out = q_in, TreeIdSolver_RNE::CartToJnt with torques = q, q_dot or q_dotdot, ChainHdSolver_Vereshchagin::CartToJnt with q_dotdot or constraint_torques over any input; every call changes the output arrays only. (The code violates this: torques over q_dotdot multiplies the joint inertia with the torque just stored; the forward solver clears q_dotdot before it reads the torques and the speeds; the null space criterion reads the positions after the speeds were stored over them.)", "quantifier": "All chains, arrays, external wrenches, decompositions; all ways in which the arguments can coincide.", "why_tests_cant": "The tests call every solver with separate arrays.", "anchors": ["orocos_kdl/src/chainidsolver_recursive_newton_euler.cpp:45-100", "orocos_kdl/src/chaindynparam.cpp:127-147", "orocos_kdl/src/chainfdsolver_recursive_newton_euler.cpp:51-95", "orocos_kdl/src/chainiksolvervel_pinv_nso.cpp:84-163", "orocos_kdl/src/treeidsolver_recursive_newton_euler.cpp:52-138", "orocos_kdl/src/chainhdsolver_vereshchagin.cpp:55-352"]}
{"id": "C103", "title": "Fixed segments are part of the link they are mounted on", "statement": "A fixed segment behind another one can be merged with it: the tip frames multiplied, the inertia of the first moved to the new tip frame with the library's frame transformation and added, the external wrenches added in the new frame. The chain with the two segments and the chain with the merged one give the same poses, velocities, Jacobians (with any locked joints), error codes, inverse dynamics torques, Coriolis and gravity torques, mass matrices and forward dynamics accelerations. A fixed segment before the first one is a change of the base: poses are multiplied by its tip frame, columns of the Jacobian turned by its rotation, the torques are those of the chain alone in the gravity seen from its own base, and neither its inertia nor the wrench on it matter.", "quantifier": "all chains with a fixed segment at any place, all inertias, joint values, rates, accelerations, external wrenches, gravities and requested segments", "why_tests_cant": "The two chains take different paths through every loop: another number of segments, another running joint index, other frames in which the bodies are expressed. A test compares two models of one robot at a few positions; a mistake in the bookkeeping of fixed segments that cancels there, or that only shows for a rotated mounting frame with an off-diagonal inertia, passes.", "anchors": ["orocos_kdl/src/chainfksolverpos_recursive.cpp:34-58", "orocos_kdl/src/chainfksolvervel_recursive.cpp:36-73", "orocos_kdl/src/chainjnttojacsolver.cpp:48-101", "orocos_kdl/src/chainidsolver_recursive_newton_euler.cpp:44-100", "orocos_kdl/src/chaindynparam.cpp:57-147", "orocos_kdl/src/chainfdsolver_recursive_newton_euler.cpp:51-95", "orocos_kdl/src/rigidbodyinertia.cpp:46-70", "orocos_kdl/src/segment.cpp:57-65"]}
{"id": "C104", "title": "Similar motions need similar torques", "statement": "With all inertias (bodies and rotors) multiplied by m, the speeds by l, the accelerations and the gravity by l^2 and the external wrenches by m l^2, the torques of ChainIdSolver_RNE are multiplied by m l^2, and the accelerations of ChainFdSolver_RNE for torques scaled in this way by l^2. Hence a motion run backwards needs the same torques, the Coriolis torques of ChainDynParam grow with the square of the speed, and the torques of a motion run l times as fast are, apart from the part that holds the weight, l^2 times those of the motion (time scaling of trajectories). The same scaling of speeds, accelerations, gravity and wrenches holds for TreeIdSolver_RNE.", "quantifier": "all chains and trees, positions, speeds, accelerations, external wrenches, gravities and scale factors (m positive for the forward dynamics)", "why_tests_cant": "These are relations between calls with different arguments for every mechanism. A term that is dropped, linear in the speed instead of quadratic, or counted with the wrong sign of the speed changes the torques only in fast motions with several moving joints, where the tests have no reference values.", "anchors": ["orocos_kdl/src/chainidsolver_recursive_newton_euler.cpp:44-100", "orocos_kdl/src/chaindynparam.cpp:127-147", "orocos_kdl/src/chainfdsolver_recursive_newton_euler.cpp:51-95", "orocos_kdl/src/treeidsolver_recursive_newton_euler.cpp:52-138", "orocos_kdl/src/rigidbodyinertia.cpp:42-52"]}
{"id": "C105", "title": "Joint scale and offset are a change of coordinates", "statement": "A joint with scale s*k and offset s*o + b driven by x is the joint with scale s and offset b driven by k*x + o. A chain in which every joint j is changed in this way by its own k_j, o_j (and its rotor inertia multiplied by k_j^2) is the same robot in other units and from other zero positions: poses, velocities and return codes are those of the old chain at the old coordinates, the Jacobian column of joint j is multiplied by k_j (also with locked joints), the inverse dynamics, Coriolis and gravity torques of joint j are multiplied by k_j, entry (i, j) of the mass matrix by k_i k_j, and the forward dynamics of the torques in the new units gives the same motion (k_j not 0). The torques of TreeIdSolver_RNE change in the same way.", "quantifier": "all chains and trees, all joint types, all scales, offsets, factors and zero positions, all positions, rates, accelerations, external wrenches, gravities, locked joints and requested segments", "why_tests_cant": "The tests use joints with scale 1 and offset 0 almost everywhere. A place where the scale is applied to the position but not to the rate, where the offset enters a rate, or where torques are not projected on the scaled axis is invisible there.", "anchors": ["orocos_kdl/src/joint.cpp:66-118", "orocos_kdl/src/segment.cpp:57-65", "orocos_kdl/src/chainfksolverpos_recursive.cpp:34-58", "orocos_kdl/src/chainfksolvervel_recursive.cpp:36-73", "orocos_kdl/src/chainjnttojacsolver.cpp:48-101", "orocos_kdl/src/chainidsolver_recursive_newton_euler.cpp:44-100", "orocos_kdl/src/chaindynparam.cpp:57-147", "orocos_kdl/src/chainfdsolver_recursive_newton_euler.cpp:51-95", "orocos_kdl/src/treeidsolver_recursive_newton_euler.cpp:52-138"]}
{"id": "C106", "title": "The dynamics solvers and the Jacobian solver describe the same mechanism", "statement": "With the poses T_i of ChainFkSolverPos and the Jacobians J_i of ChainJntToJacSolver for every segment i: external wrenches w_i (in the tip frames) reduce the torques of ChainIdSolver_RNE by the sum of J_i^T (R_i w_i), at every speed and acceleration; for a wrench on the last segment this is the transposed Jacobian of the whole chain. The mass matrix of ChainDynParam is the sum of J_i^T I_i J_i over the bodies plus the rotor inertias on the diagonal. The gravity torque of joint k is minus the sum of the weights times the velocity column k gives to the centres of gravity. The forward dynamics with external wrenches is the forward dynamics without them at the torques increased by the sum of J_i^T (R_i w_i). For trees, the wrenches on the named segments reduce the torques of TreeIdSolver_RNE by the transposed Jacobians of TreeJntToJacSolver.", "quantifier": "all well-formed chains with valid segments and symmetric inertias and all trees built by addSegment, all positions, rates, accelerations, torques, external wrenches and gravities", "why_tests_cant": "The Jacobian solvers work in the base frame with the reference point at the tip, the dynamics solvers in the tip frames of the segments, with separate loops. A disagreement in a frame, a reference point or a sign only shows if the two results are combined; the tests compare none of them.", "anchors": ["orocos_kdl/src/chainjnttojacsolver.cpp:48-101", "orocos_kdl/src/chainidsolver_recursive_newton_euler.cpp:44-100", "orocos_kdl/src/chaindynparam.cpp:57-147", "orocos_kdl/src/chainfdsolver_recursive_newton_euler.cpp:51-95", "orocos_kdl/src/chainfksolverpos_recursive.cpp:34-58", "orocos_kdl/src/treejnttojacsolver.cpp:25-81", "orocos_kdl/src/treeidsolver_recursive_newton_euler.cpp:52-138"]}
{"id": "C107", "title": "Chains joined by addChain move like their parts", "statement": "For a chain made by Chain::addChain from a first and a second chain, with the joint values written one after the other: the pose of the tip is the pose of the first times that of the second; its velocity is the product of the two velocities (the twist of the first referred to the new tip, plus the twist of the second turned by the pose of the first); the Jacobian has the columns of the first referred to the new tip, then those of the second turned by the pose of the first. With the first part at rest, the second part needs the torques it needs alone in the gravity seen from the tip of the first, for any external wrenches; so do the gravity torques. The block of the mass matrix of the second part is its own mass matrix, whatever the position of the first. A second part without mass and load leaves the torques of the first unchanged in every motion.", "quantifier": "all well-formed chains with valid segments (symmetric inertias for the mass matrix), all positions, rates, accelerations, external wrenches and gravities", "why_tests_cant": "Every solver counts joints and segments in its own loop; a counter that is wrong only after a fixed joint or in the middle of a chain shows only for chains put together from parts with fixed segments. The tests join no chains and compare with the parts.", "anchors": ["orocos_kdl/src/chain.cpp:61-65", "orocos_kdl/src/chainfksolverpos_recursive.cpp:34-58", "orocos_kdl/src/chainfksolvervel_recursive.cpp:36-74", "orocos_kdl/src/chainjnttojacsolver.cpp:48-101", "orocos_kdl/src/chainidsolver_recursive_newton_euler.cpp:44-100", "orocos_kdl/src/chaindynparam.cpp:57-147"]}
{"id": "C108", "title": "Rounding errors of the forward velocity kinematics", "statement": "In floating point arithmetic (see C98) the velocity solver returns the codes of the exact program; its pose is, operation by operation, the one of the position solver, and its angular and linear velocity differ from those of the ideal chain by at most explicit bounds, which vanish with the unit roundoff and the errors of the stored numbers. Along every motion of the joints the computed twist is therefore within these bounds of the true derivative of the pose of the ideal chain. In double precision, with at most ten segments within the ranges of C98 and joints moving at no more than one unit per second, the angular velocity is within 1e-9 and the linear velocity within 1e-6. Without rounding the program is the one of C26.", "quantifier": "all arithmetics that satisfy the standard model, all chains, joint values and rates, all requested segments, all motions", "why_tests_cant": "Velocities are summed over the segments, and each product uses the angular velocity summed so far, so errors grow with the square of the number of segments; tests compare with difference quotients at tolerances far above these errors.", "anchors": ["orocos_kdl/src/chainfksolvervel_recursive.cpp:36-74", "orocos_kdl/src/framevel.inl:33-38", "orocos_kdl/src/framevel.inl:129-134", "orocos_kdl/src/framevel.inl:189-195", "orocos_kdl/src/framevel.inl:245-250", "orocos_kdl/src/segment.cpp:62-65", "orocos_kdl/src/joint.cpp:93-116"]}
{"id": "C109", "title": "Rounding errors of the inverse dynamics", "statement": "In floating point arithmetic (see C98) the recursive Newton-Euler solver returns the codes of the exact program, and each torque differs from that of the ideal chain by at most a bound computed along its two sweeps from the unit roundoff, the errors of the stored geometry and the sizes of masses, rates, accelerations and loads. In double precision, with at most six segments within the ranges of C98, rates, accelerations and motor inertias at most 1, masses and first moments at most 10, inertias of norm at most 100, loads at most 100 and gravity at most 10, every torque is within 4e-4. For an arm of at most eleven segments of at most half a metre and 18 kg with joints about coordinate axes, in particular for the Puma 560 of the directory models, every torque is within 1e-6. Without rounding the program is the one of C39.", "quantifier": "all arithmetics that satisfy the standard model (any order of summation in the product of the inertia matrix and a vector), all chains, joint values, rates, accelerations and external wrenches", "why_tests_cant": "Velocities and accelerations are carried outward and wrenches inward, each step multiplying by lever arms, so rounding errors are amplified differently at each joint; tests compare single postures with tolerances chosen by hand.", "anchors": ["orocos_kdl/src/chainidsolver_recursive_newton_euler.cpp:44-103", "orocos_kdl/src/rigidbodyinertia.cpp:50-53", "orocos_kdl/src/frames.inl:156-163", "orocos_kdl/src/frames.inl:282-289", "orocos_kdl/src/frames.inl:345-390", "orocos_kdl/src/frames.inl:1012-1020"]}
{"id": "C110", "title": "Rounding errors of the tree solvers", "statement": "In floating point arithmetic (see C98) the tree solvers for position and Jacobian return the codes of the exact program; the pose of a segment and each column of its Jacobian differ from those of the ideal tree by at most a bound computed along the path from the root, and the columns of joints that are not on the path are exactly zero. In double precision, for a segment at most ten segments from the root and elements within the ranges of C98, the pose is within 6e-12 (rotation) and 2e-9 (origin) and the columns within 1e-8 (velocity) and 2e-11 (angular velocity). Without rounding the programs are those of C34 and C35.", "quantifier": "all arithmetics that satisfy the standard model, all trees, joint values and segments", "why_tests_cant": "The Jacobian is assembled from the tip to the root and turned twice, so the error of one column depends on the whole path above it; tests compare single postures with tolerances chosen by hand.", "anchors": ["orocos_kdl/src/treefksolverpos_recursive.cpp:33-62", "orocos_kdl/src/treejnttojacsolver.cpp:21-67", "orocos_kdl/src/jacobian.cpp:98-110"]}
{"id": "C111", "title": "Rounding errors in building an arm", "statement": "In floating point arithmetic (see C98) the frames computed from Denavit-Hartenberg parameters, classical or modified, differ from the ideal ones by at most 6t in the rotation (Frobenius norm) and 4tm in the origin, where t bounds the errors of sines and cosines including those of the angles, and m the lengths. The segment constructor, which multiplies by the inverse of the joint at zero, stores for a joint about z or a fixed one a tip frame within 5e-15 of the ideal one in double precision. The inertia about the origin computed from mass, centre of mass and inertia about it is within 1e-14 in the first moment and 5e-14 in the matrix, for masses at most 18, coordinates at most 0.4 and entries at most 1. So the Puma 560 built by Puma560() in double precision, with its rounded literals and its rounded PI_2, has the shape of the ideal one, its poses are within 3e-12 (rotation) and 3e-11 metres, and its torques within 1e-6 of those of the ideal arm, for joint angles at most 4 and the ranges of C109. Without rounding the constructors are the exact ones.", "quantifier": "all arithmetics that satisfy the standard model, all parameters; for the Puma all joint values within the ranges, all rates, accelerations and loads", "why_tests_cant": "A test cannot see the ideal robot: it compares doubles with doubles computed the same way, so an error of the constructor is shared by both sides.", "anchors": ["orocos_kdl/src/frames.cpp:53-85", "orocos_kdl/src/segment.cpp:31-36", "orocos_kdl/src/rigidbodyinertia.cpp:35-40", "orocos_kdl/src/frames.inl:422-425", "orocos_kdl/src/utilities/utility.cxx:17", "orocos_kdl/models/puma560.cpp:27-60"]}
{"id": "C112", "title": "Rounding errors of rotations made from angles and quaternions", "statement": "In double precision (standard model as in C98, sine and cosine with an error of one unit in the last place) the matrix made from roll, pitch and yaw, from Euler angles z-y-x or z-y-z, each angle rounded and at most 4 in magnitude, is within 1.2e-14 (Frobenius norm) of the product of the three elementary rotations; the matrix of a unit quaternion with rounded coordinates is within 9e-15 of a proper rotation, the ideal one. DoRotX, DoRotY and DoRotZ add at most 6e-15 to the distance of the matrix from the ideal rotation, so after n turns in place (n at most 10^11) the matrix is within n times 6e-15 of the exact product. Without rounding the functions are those of C02.", "quantifier": "all arithmetics that satisfy the standard model, all angles and unit quaternions in range, all sequences of turns", "why_tests_cant": "Turning in place reuses entries that were computed before; whether the error grows linearly or doubles with every turn is visible only after many turns, and tests make one.", "anchors": ["orocos_kdl/src/frames.cpp:190-198", "orocos_kdl/src/frames.cpp:237-247", "orocos_kdl/src/frames.cpp:262-273", "orocos_kdl/src/frames.hpp:471-473", "orocos_kdl/src/frames.inl:556-602"]}
{"id": "C113", "title": "Rounding errors of moving an inertia", "statement": "Let an inertia (mass, first moment, rotational inertia) and a frame be stored with given errors. Then Frame * RigidBodyInertia, Rotation * RigidBodyInertia and RefPoint, computed with any rounding of relative error at most u after every operation, return every coordinate of the first moment and every entry of the inertia within an explicitly computed bound of the exact result for the ideal arguments, and pass on the mass unrounded. In double precision, for a frame and mass data of the accuracy of C111, an origin within 0.5, a mass up to 18, a first moment up to 8 and an inertia up to 6, the first moment is within 1.6e-12 and the inertia within 1.2e-10. Without rounding the programs are those of the exact model.", "quantifier": "for all machines obeying the standard rounding model, all proper frames, all inertias and all bounds of the arguments", "why_tests_cant": "A test compares numbers computed by the same arithmetic with a tolerance chosen by hand; it neither bounds the error for all arguments nor separates it from the errors of the stored data.", "anchors": ["orocos_kdl/src/rigidbodyinertia.cpp:54-70", "orocos_kdl/src/rigidbodyinertia.cpp:72-81", "orocos_kdl/src/rigidbodyinertia.cpp:83-97"]}
{"id": "C114", "title": "Rounding errors of Coriolis and gravity torques", "statement": "In double precision (standard model as in C98) JntToCoriolis and JntToGravity of ChainDynParam, called on a fresh object with arrays of the right sizes, succeed and return torques within 4e-4 of those of the ideal chain, for at most six segments in the ranges of C109; for gravity no range of rates is needed. For the Puma 560 built by Puma560() in double precision, joint angles at most 4, rates at most 1 and gravity at most 10, they are within 1e-6 of those of the ideal arm. Without rounding they are the functions of the exact model.", "quantifier": "all arithmetics that satisfy the standard model, all chains in range, all joint values and rates in range, all previous contents of the output", "why_tests_cant": "A test compares with numbers from the same arithmetic or with a second formula that shares the stored parameters; it shows neither the distance from the ideal robot nor that it holds for all postures.", "anchors": ["orocos_kdl/src/chaindynparam.cpp:127-138", "orocos_kdl/src/chaindynparam.cpp:139-150"]}
{"id": "C115", "title": "Rounding errors of the joint space inertia matrix", "statement": "In floating point arithmetic (standard model as in C98) ChainDynParam::JntToMass, given arrays of the right sizes, succeeds and returns a matrix every entry of which is within an explicitly computed bound of that of the ideal chain, the bound being carried along the sums of articulated body inertias, their change of frame and the wrenches passed to the base. Wrong sizes are reported as without rounding. The matrix returned is exactly symmetric on any machine, whatever the rounding and the contents of the matrix passed in. In double precision and for at most six segments in the ranges of C109 the bound is 4e-5. For the Puma 560 built by Puma560() in double precision and joint angles at most 4 the bound is 3e-8 for all 36 entries. Without rounding the function is that of the exact model.", "quantifier": "all arithmetics that satisfy the standard model, all chains and joint values within given bounds, all previous contents of the matrix; for the Puma all joint angles in range", "why_tests_cant": "A test compares the matrix with numbers from the same arithmetic and the same stored parameters at a few postures; the distance from the ideal robot and its growth along the chain are invisible to it.", "anchors": ["orocos_kdl/src/chaindynparam.cpp:61-125", "orocos_kdl/src/articulatedbodyinertia.cpp:28-36", "orocos_kdl/src/articulatedbodyinertia.cpp:53-55", "orocos_kdl/src/articulatedbodyinertia.cpp:68-73", "orocos_kdl/src/articulatedbodyinertia.cpp:75-88"]}
