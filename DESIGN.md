# Design of the formal model of orocos_kdl

The model is in Lean 4 (4.33.0) with Mathlib.  Sources are cited relative to `/repo/orocos_kdl/src`.

## Layout

* `lean/Verif/Model/*.lean` – definitions that transcribe C++ functions, each with file and line citations and a
  note on every simplification.
* `lean/Verif/Lemmas/*.lean` – closed forms, invariants and algebra used by the proofs.
* `lean/Verif/Props/*.lean` – the property theorems, one or few properties per file, with non-vacuity `example`s.
  Theorem names start with the property id.  `_violated` theorems refute the full statement (which is kept as a `def` of
  type `Prop` or in the theorem itself) with a concrete witness; `_partial` theorems say what holds instead.
* `properties.jsonl` – the properties in English; `MANIFEST.json` – status and theorem names;
  `seeded/LOG.jsonl` – wrong programs tried against the theorems.

## Modelling conventions

* `double` is modelled by the real numbers.  Rounding (but for C98 to C100), overflow and signed zeros are not modelled.  Another exception is
  the singular value decomposition, whose convergence tests rely on absorption (`x + a == a`); there the outcome of the
  comparison is a parameter (see C54).  Infinities and NaN are values in Model/NonFinite.lean (C95, C96, C97).
* Where the C++ divides by zero on inputs its interface admits, the model has a distinct outcome (`nan`, `nonfinite`,
  `none`, `Plan.nan`, …) or the theorem carries the hypothesis that the denominator is not zero.  No theorem relies on
  Lean's `x / 0 = 0`.
* Undefined behaviour (out-of-bounds access, dereferencing `end()` or a singular iterator, products of matrices of the wrong
  size) is the outcome `none`, distinct from every error code; totality theorems show where it cannot occur.
* Exceptions are separate outcomes (`throws`, `thrown`, `Except`).
* `atan2(y,x)` is `Complex.arg (x + i y)` (the values of C on finite doubles apart from signed zeros).
* Vectors, rotations, frames, twists, wrenches and inertias are structures with the data members of the C++ classes.
  In-place operations return the new value of `*this`; where aliasing of arguments matters (C24, C29, C30, C32, C80, C102) objects
  have identities and stores happen one after the other.
* Joint arrays are lists of reals, read through `Option`.  Solver error codes are the integers of `solveri.hpp:87–108`.
* Loops over segments are recursions over the segment list with the joint counter of the code; `maxiter` loops are
  recursions on the remaining number of iterations; loops without a bound (C68) carry fuel and the theorems quantify over
  it.
* Objects passed by reference through virtual interfaces (inner solvers, paths, profiles) are function parameters.  Where
  they can carry state the parameter also takes the number of the call.
* Eigen's `JacobiSVD` and, in the solver models, KDL's own SVD are parameters constrained by the specification they
  document (`IsSvd`, `GoodDec`, `GoodThinSvd`), which is shown to be satisfiable.  KDL's own SVD is modelled and examined in
  C54; it violates that specification for some inputs.

## Parts of the library that are not modelled

* Conversion of numbers to and from text (`std::num_get`, `std::num_put`; a parameter in C67, C73 and C81).
* `Rall2d` with other value types than `double`; Python bindings beyond element access and pickling (C79) and the lifetime of
  objects (C85) and the references behind variables (C93); of the examples, chainiksolverpos_lma_demo.cpp is C83, trajectory_example.cpp C90, geometry.cpp C91,
  the programs of the models directory C92.
* `chainidsolver_vereshchagin` (a deprecated alias of the hybrid dynamics solver).

## Properties

`status` and theorem lists are in `MANIFEST.json`.  Each entry says what is modelled, how the proof goes, and – if the
status is partial – what fails or is missing.

### C01 Rotation composition, inverse and action form the group SO(3) (proved)

* Modelled: `Rotation` as nine reals (frames.inl).
* Proof: Products and inverses by `ext; ring`; inverse laws from orthogonality used as polynomial hypotheses (`linear_combination`).
* Result: Proved for all matrices / all proper rotations over the reals.

### C02 Every rotation constructor yields a proper rotation (proved)

* Modelled: All constructors of `Rotation` (frames.hpp, frames.cpp).
* Proof: Properness (rows orthonormal, determinant 1) from `sin² + cos² = 1`, the unit axis or the unit quaternion.
* Result: Every constructor yields a proper rotation (unit quaternion / unit axis hypotheses stated where the code needs them).

### C03 Frame composition, inverse and action form the group SE(3) (proved)

* Modelled: `Frame` with `M`, `p`.
* Proof: From C01 componentwise.
* Result: Proved.

### C04 Twist and wrench transforms are group actions that preserve power (proved)

* Modelled: `Twist`, `Wrench`, `RefPoint`, frame and rotation action.
* Proof: Componentwise algebra; power is invariant by orthogonality.
* Result: Proved.

### C05 Spatial cross products are dual, satisfy Jacobi and are equivariant (proved)

* Modelled: Spatial cross products of twists and wrenches.
* Proof: Componentwise algebra.
* Result: Proved.

### C06 RPY and Euler angles round trip (proved)

* Modelled: `GetRPY`, `GetEulerZYZ/ZYX` with the branches of the code.
* Proof: Case analysis on the branches; `Complex.arg` of the products of cosines; gimbal lock from the orthogonality of the remaining block.
* Result: Proved, including the gimbal-lock branches; inside the band of 1e-12 around the gimbal lock RPY(GetRPY(R)) differs from R by at most 2e-12 per entry (C06_rpy_band), and not by nothing (C06_rpy_band_inexact).

### C07 Quaternion round trip (proved)

* Modelled: `GetQuaternion` with its four branches.
* Proof: Each branch inverts the matrix of a unit quaternion up to sign; trace identities.
* Result: Proved for all four branches of GetQuaternion.

### C08 Axis-angle extraction (partial)

* Modelled: `GetRotAngle` with both tolerance tests.
* Proof: The skew part gives `sin`, the trace `cos`; exactly symmetric rotations by the identity `R² = 1`.
* Result: Round trip, angle range and unit axis proved outside the tolerance bands and on exactly symmetric rotations; the documented positive-Z rule at angle PI is refuted by C08_positive_z_violated and holds only when Z dominates.

### C09 diff and addDelta are inverse operations (partial)

* Modelled: `diff`, `addDelta` for all types.
* Proof: Algebra and C08.
* Result: Proved for vectors, twists, wrenches; for rotations and frames outside the tolerance band; C09_rot_violated refutes the unrestricted statement with a 6e-7 rad rotation about X.

### C10 Rotation about an axis obeys the one-parameter group law (proved)

* Modelled: `Rot`, `Rot2`.
* Proof: Rodrigues algebra; derivative componentwise with `HasDerivAt`.
* Result: Proved, including the time derivative.

### C11 Denavit-Hartenberg constructors equal products of elementary transforms (proved)

* Modelled: `DH`, `DH_Craig1989`; chains of links in both conventions.
* Proof: Expansion of the product; both constructors are made of the transform along the joint and the one along the link, then induction on the links.
* Result: Proved.

### C12 In-place axis rotations equal right multiplication (proved)

* Modelled: `DoRotX/Y/Z`.
* Proof: Expansion of the product; addition theorems of sine and cosine.
* Result: Proved.

### C13 2D rotations: element access agrees with the action, group laws hold (partial)

* Modelled: `Rotation2`, `Frame2`, `Vector2`.
* Proof: Algebra; witness for the transposed access.
* Result: Group laws proved; element access is the transpose of the action (C13_entry_violated).

### C14 Vector length and normalisation (partial)

* Modelled: `Norm`, `Normalize` with the branch on the largest component; `Set2DPlane`, `Set3DPlane`.
* Proof: Exact characterisation of the result; witnesses.
* Result: Norm is exact except for x-dominant vectors below eps (C14_norm_violated); Set2DPlane never writes its result (C14_set2DPlane_violated); Normalize ignores an eps below 1e-6 for x-dominant vectors.

### C15 Equal is a symmetric, tolerance-monotone comparison applied to every component (proved)

* Modelled: `Equal` for all types.
* Proof: Logic over the components.
* Result: Proved for scalar, vector, rotation, frame, twist, wrench, the velocity and acceleration types (also mixed with plain types) and Rall1d, Rall2d.

### C16 First-order dual numbers differentiate correctly (proved)

* Modelled: `Rall1d` operators, written assignment by assignment.
* Proof: A dual number represents a curve (`Rep`: value and derivative); every operation maps representations to representations.
* Result: Proved for every operation of Rall1d that instantiates (abs does not): each result represents the composed curve (value and derivative), also for in-place operators applied to the object itself.

### C17 Second-order dual numbers differentiate correctly (partial)

* Modelled: `Rall2d` in the same way.
* Proof: As C16 with second derivatives; exact condition for the in-place product.
* Result: Proved for every binary and unary operation with first and second derivative; the in-place product is wrong (C17_mulAssign_violated) and right exactly under C17_mulAssign_condition; x *= x is wrong as well (C17_self_violated, C17_self_condition).

### C18 FrameVel / RotationVel / VectorVel / TwistVel carry true velocities (partial)

* Modelled: framevel.inl, all overloads.
* Proof: Curves of vectors, rotations, frames; componentwise derivatives.
* Result: Every operator represents the composed curve; RotationVel::RotY is refuted (C18_rotY_violated).

### C19 FrameAcc / RotationAcc / VectorAcc / TwistAcc carry true accelerations (partial)

* Modelled: frameacc.inl, all overloads.
* Proof: As C18 with second derivatives.
* Result: Every operator represents value, first and second derivative of the composed curve, the norm where it is not rounded to zero; there VectorAcc::Norm divides by zero where VectorVel::Norm does not (C19_vec_norm_violated).

### C20 diff/addDelta on frames with velocity are inverse operations (partial)

* Modelled: `diff`/`addDelta` on the velocity types.
* Proof: C09 and C18.
* Result: Vector and rotation parts hold (rotations outside the C09 tolerance band); the frame version exchanges its two parts (C20_frame_violated).

### C21 Joint pose and twist agree (proved)

* Modelled: `Joint::pose`, `Joint::twist` for all joint types.
* Proof: C10 per joint type.
* Result: Pose is proper and its derivative is the reported twist, for all joint types with a unit axis.

### C22 Joint constructors reject mismatched types (partial)

* Modelled: Joint constructors with exceptions.
* Proof: Case analysis; witness for the zero axis.
* Result: The axis constructor divides by the axis norm without a check: a zero axis gives NaN (C22_axis_violated); the full behaviour for nonzero axes is C22_axis_ok_partial.

### C23 Segment pose and twist (proved)

* Modelled: `Segment`.
* Proof: C21 and frame algebra.
* Result: Segment pose/twist/frame-to-tip, including that the tip frame is the pose at joint value zero.

### C24 Chain bookkeeping (partial)

* Modelled: `Chain` with object identities.
* Proof: Invariant by induction over operation sequences; witnesses for self-assignment, self-append, writes through the reference.
* Result: Counts match the segment list for every sequence of additions, copies and assignments; self-assignment, self-append and writes through getSegment break it (three _violated theorems).

### C25 Forward position kinematics is the ordered product of segment poses (proved)

* Modelled: `ChainFkSolverPos_recursive`, both overloads.
* Proof: Induction over the segment list with the joint counter.
* Result: All outcomes of both overloads, for every chain and segment number.

### C26 Forward velocity kinematics is the derivative of forward position kinematics (proved)

* Modelled: `ChainFkSolverVel_recursive`.
* Proof: Induction; derivative of the product of poses along any differentiable joint motion.
* Result: Twist is the derivative of the position solver along every differentiable joint motion; overloads agree.

### C27 The geometric Jacobian maps joint rates to the tip twist (proved)

* Modelled: `ChainJntToJacSolver` with locked joints and update.
* Proof: Column invariant during the loop (reference point moved segment by segment); induction.
* Result: J*qdot equals the velocity solver twist and the derivative of the position; locked joints; error codes; update.

### C28 The Jacobian time derivative solver is the derivative of the Jacobian (partial)

* Modelled: `ChainJntToJacDotSolver`, three representations; setters of the representation and updateInternalDataStructures.
* Proof: The double loop is summed up in closed form and compared with the derivative of the columns. The update is shown to give every buffer the size of the changed chain and to keep the flags of the remaining joints.
* Result: Proved for all three representations without locked joints; with locked joints no request for the whole chain is ever answered (C28_locked_violated), and the rate array size is not checked (C28_qdot_violated).

### C29 Jacobian base, reference point and reference frame changes act column-wise (proved)

* Modelled: `changeRefPoint`, `changeBase`, `changeRefFrame` as column loops with aliasing.
* Proof: Loop invariants.
* Result: Loops modelled with source = destination allowed.

### C30 Joint array arithmetic implements dual number arithmetic, also in place (partial)

* Modelled: JntArray/Vel/Acc operations with identities.
* Proof: Exact results of the sequential stores; conditions on aliasing.
* Result: Objects have identities so that aliasing is expressible: sums, differences and plain factors hold in place; the dual-number factors hold only when the destination is another object (C30_inplace_violated, C30_inplace_condition).

### C31 Tree numbering invariant (proved)

* Modelled: `Tree` as insertion-ordered map with parent names.
* Proof: Invariant (numbers 0..n−1 in order of insertion, parents present, acyclic) by induction over operations.
* Result: Invariant by induction over operation sequences; the map is modelled as the insertion-ordered list of its elements.

### C32 Copying and grafting trees (partial)

* Modelled: Copy, assignment, `addTree`.
* Proof: The copy is a depth-first traversal; numbering characterised exactly.
* Result: Structure, child order, idempotence proved; numbers survive exactly for trees built depth first (C32_copy_exact_iff); violated otherwise, and self-assignment empties the tree.

### C33 Chains extracted from trees (partial)

* Modelled: `getChain`.
* Proof: Paths to the common ancestor, reversed segments; frame identity per segment.
* Result: Proved when moving joints on the reversed part have scale 1; the scale is dropped otherwise (C33_reversed_scale_violated).

### C34 Tree forward kinematics (partial)

* Modelled: `TreeFkSolverPos_recursive`.
* Proof: Recursion to the root; comparison with the product along the path.
* Result: Proved for the solver with its own tree; the solver copies the tree, which renumbers joints (C34_solver_numbering_violated); undefined read for trees without joints (C34_no_joints_violated).

### C35 Tree Jacobian (partial)

* Modelled: `TreeJntToJacSolver`.
* Proof: Columns along the path, as C27; the stored copy of the tree as in C34.
* Result: Proved for trees with at least one joint, in the numbering of the tree object stored in the solver. Violated: the solver copies the tree, which renumbers the joints of trees not added depth first (C35_solver_numbering_violated); a tree without joints reads element 0 of an empty array (C35_no_joints_violated).

### C36 Tree inverse dynamics (partial)

* Modelled: `TreeIdSolver_RNE` with its maps and the update.
* Proof: Recursion over the tree; Newton–Euler laws for each body; comparison with the chain solver on a path-shaped tree.
* Result: Newton-Euler laws for every body, agreement with the chain solver, argument checks and the exact outcome condition are proved for all trees with the reference formed from the root parent iterator taken as harmless. The clause "no undefined behaviour" fails: C36_root_parent_violated shows that every accepted call dereferences the singular parent iterator of the root (GetTreeElementParent(seg->second)->first).

### C37 Rigid body inertia algebra (proved)

* Modelled: Rigid body inertia.
* Proof: Operations as functions of the momentum map; energy as an integral-free quadratic form of a body with mass, centre of gravity and central inertia.
* Result: All operations of RigidBodyInertia as functions of the momentum map; energy of bodies given by mass, centre of gravity and central inertia.

### C38 Articulated body inertia algebra (proved)

* Modelled: Articulated body inertia.
* Proof: As C37 with 6×6 blocks.
* Result: All operations of ArticulatedBodyInertia; transformation needs symmetric blocks (C38_transform_needs_symm).

### C39 Recursive Newton-Euler is affine in accelerations and consistent with the dynamic parameters solver (proved)

* Modelled: `ChainIdSolver_RNE`, `ChainDynParam`.
* Proof: Both sweeps as one recursion (`rneF`); affine in the accelerations; coefficients are the matrices of the second solver; Newton's law along trajectories.
* Result: Proved for all well formed chains; C39_newton states the physical law along differentiable trajectories; tensors need symmetry only for the decomposition.

### C40 The joint space inertia matrix is symmetric and positive semidefinite (proved)

* Modelled: `JntToMass` (composite inertia sweep).
* Proof: Equal to the kinetic energy form built from the velocity solver.
* Result: The matrix is identified with the kinetic energy form built from the velocity solver; symmetric, positive (semi)definite.

### C41 LDL^T solver (proved)

* Modelled: `ldl_solver_eigen` loop by loop.
* Proof: Invariant of the factorisation; zero pivots produce a null vector.
* Result: Exact characterisation: solves whenever no pivot is zero, always on positive definite matrices; a zero pivot exhibits a null vector of the form.

### C42 Forward dynamics inverts inverse dynamics (proved)

* Modelled: `ChainFdSolver_RNE::CartToJnt` with work arrays of arbitrary contents.
* Proof: C39–C41.
* Result: Both compositions proved for a freshly constructed solver; sizes wrong: codes and untouched outputs.

### C43 Energy: gravity torques are a gradient and the power balance holds (proved)

* Modelled: (Uses C39.)
* Proof: Derivative of kinetic and potential energy along trajectories.
* Result: Power balance and gradient property for arbitrary differentiable trajectories.

### C44 Forward dynamics solver after a chain change (partial)

* Modelled: `updateInternalDataStructures` of the forward dynamics solver.
* Proof: Exact return code after a change of size.
* Result: Violated: the update forgets the owned solvers and work arrays, so every later call returns E_NOT_UP_TO_DATE (C44_stale). Proved when the sizes do not change.

### C45 Hybrid dynamics obeys the equations of motion and Gauss' principle (partial)

* Modelled: `ChainHdSolver_Vereshchagin`, three sweeps, SVD as a parameter.
* Proof: Articulated inertia recursion; equations of motion with constraint forces; Gauss' principle as minimality of the constraint energy.
* Result: Equations of motion with uniqueness, segment accelerations, Gauss principle, agreement with forward dynamics and totality for massive chains without fixed joints proved; the constraint when every singular value is zero or above the threshold. Violated: constraint_torques is not the command the documentation says (right for the last joint only), attainable constraints with singular values below 1e-14 are dropped with code 0, fixed joints read outside the arrays (exactly when the first or the last segment is fixed) or divide by zero (otherwise).

### C46 External wrench estimator converges to the wrench on the end effector (partial)

* Modelled: `ChainExternalWrenchEstimator` as a state machine.
* Proof: First-order recurrences; convergence with exact stability limits; least squares of C49.
* Result: Recursion, convergence with the exact stability limit, rate without filter, least-squares wrench, convergence to the applied wrench for a robot held still, and errors proved. Violated: setInitialMomentum does not store the inertia matrix, so the first sample of a moving robot is wrong by -K*M*qdot for every massive chain (partial: right if the stored matrix is the initial one or the robot stands still); after a change of the number of joints the next estimate depends on uninitialised memory; an estimator without joints cannot be updated.

### C47 Joint-limited Newton-Raphson IK respects limits (partial)

* Modelled: `ChainIkSolverPos_NR_JL`.
* Proof: Induction over iterations with arbitrary inner solvers.
* Result: Success, limits and failure proved for every chain and inner solver. Violated: the default limits of the constructor without limits are positive (DBL_MIN..DBL_MAX), so zero is not within them.

### C48 Newton-Raphson IK success is sound (partial)

* Modelled: `ChainIkSolverPos_NR`.
* Proof: As C47.
* Result: Violated: the update is applied before the convergence test, so q_out may miss the target by more than eps; getError is not set on success after a failure. The weaker success theorem and soundness for inner solvers that return small increments are proved.

### C49 Pseudo-inverse velocity solver (partial)

* Modelled: `ChainIkSolverVel_pinv`.
* Proof: Matrix algebra from the SVD specification; minimality by orthogonality.
* Result: Minimum norm least squares and exactness proved relative to the documented contract of the decomposition (which is shown to be satisfiable). Violated: with fewer than six joints a singular Jacobian is never reported.

### C50 Weighted damped least squares solver (partial)

* Modelled: `ChainIkSolverVel_wdls`.
* Proof: As C49 with the damped normal equations.
* Result: Damped optimality and exactness proved for six joints or more and lambda other than 0. Violated: undefined behaviour below six joints; 0/0 at exactly singular configurations with the default lambda; weight setters accept matrices of the wrong shape.

### C51 Null space optimising solver (partial)

* Modelled: `ChainIkSolverVel_pinv_nso`.
* Proof: Null space projection; derivative of the objective.
* Result: Null space membership and first order descent proved for six joints or more. Violated: write outside an array below six joints.

### C52 Levenberg-Marquardt position solver (partial)

* Modelled: `ChainIkSolverPos_LMA` including diagnostics.
* Proof: Loop invariant over the state machine of the damping; the step solves the damped normal equations; gradient by the derivative of the rotation vector.
* Result: Step, gain ratio, damping, exits, return codes and monotone error are proved for all inputs. The documentation of the diagnostic members fails: if the start position meets the tolerance, lastDifference is the unweighted error and lastSV stems from whatever jac held before (C52_lastDifference_violated, C52_lastSV_violated); after E_MAX_ITERATIONS_EXCEEDED lastTransDiff is weighted (C52_lastTransDiff_violated); maxiter 0 reads singular values never computed (C52_maxiter_zero_violated). C52_gradient (J^T d is the gradient of the squared error) is proved for equal rotational weights and rotation errors outside the tolerance band of GetRotAngle; with different rotational weights it is not the gradient, and the solver can stop at once with E_INCREMENT_JOINTS_TOO_SMALL where positions nearby are better (C52_stall, C52_gradient_violated). Display output is not modelled.

### C53 Online position solver for trees (partial)

* Modelled: `TreeIkSolverPos_Online`.
* Proof: Exact scaling factors; one-step result.
* Result: Joint rate scaling, one-step result, limits and errors are proved for all inputs and inner solvers. Violated: the Cartesian limits are scaled by the longer component, not by the one exceeding its limit most, so limits stay exceeded, twists may be amplified, and equal lengths are left alone (C53_cart_*_violated; partial where the longer component dominates); endpoints without a goal keep the twist of an earlier call (C53_stale_violated).

### C54 Singular value decomposition (partial)

* Modelled: `svd_eigen_HH` and `SVD_HH::calculate` statement by statement: Householder reduction, accumulation, implicit QR with splitting, sorting, return codes.  The comparisons `fabs(x)+anorm == anorm` are the parameter `eqv`, of which it is assumed that small `x` are absorbed and large ones are not.
* Proof: Orthogonality invariants for each reflection and rotation; a potential (products of off-diagonal entries) that decreases by a constant factor in every QR sweep gives convergence within an explicit number of sweeps; everything neglected is collected in an explicit error bound.
* Result: Both routines are total, with orthogonal V, orthonormal U and sorted values for every matrix, comparison relation and iteration count (C54_total). The decomposition itself is proved up to an explicit error for norms below 2 and epsilon = 0, with convergence of the iteration with Wilkinson shift proved within an explicit number of iterations (C54_converges, C54_decomposes_partial); with two columns exactly within two iterations. Violated: a value of exactly -2 passes for zero (C54_split_violated), small matrices are not diagonalised because anorm is a bool (C54_scale_violated), thresholds are applied to two different norms (C54_eps_violated), and code -2 depends on maxiter alone (C54_code_violated).

### C55 Rectangular velocity profile (partial)

* Modelled: `VelocityProfile_Rectangular`.
* Proof: Piecewise functions; derivatives away from the corners.
* Result: SetProfile proved. SetProfileDuration violated for backward motions: the limit test ignores the sign and a zero duration gives a negative Duration(); proved for forward or slow enough motions.

### C56 Trapezoidal velocity profile (partial)

* Modelled: `VelocityProfile_Trap`, all planning functions.
* Proof: Branches of the planner; time optimality by a comparison with any admissible motion (monotonicity of velocity and position bounds).
* Result: All planning functions proved for positive limits incl. time optimality. Violated: SetProfileDuration(x,x,0) and hence Clone() of a profile without displacement compute 0/0; proved with a displacement.

### C57 Half trapezoidal velocity profile (partial)

* Modelled: `VelocityProfile_TrapHalf`.
* Proof: As C56.
* Result: Violated: prolonging a motion too short to reach maxvel exceeds maxacc. Everything else proved; the acceleration bound proved when the distance suffices to reach maxvel.

### C58 Spline velocity profile meets its boundary conditions (partial)

* Modelled: `VelocityProfile_Spline`.
* Proof: Polynomials; derivatives by `HasDerivAt`; boundary conditions by `field_simp`.
* Result: Cubic, quintic and derivative claims proved for all durations above the machine epsilon. Violated: the linear variant with a tiny duration never reaches the end position.

### C59 Dirac velocity profile (partial)

* Modelled: `VelocityProfile_Dirac`.
* Proof: Case analysis.
* Result: Violated: Vel and Acc throw instead of being zero as documented. Position and the variant with a duration proved.

### C69 Frame::Integrate advances by the twist (partial)

* Modelled: `Frame::Integrate`.
* Proof: C10; witnesses in the tolerance band.
* Result: Position update and properness proved for all inputs, the rotation for angular velocities and steps above the machine tolerance of the library. Violated: slow rotations at high sampling rates are dropped; small angular velocities at low rates turn about the x axis.

### C60 Path_Line is the straight interpolation between two frames (partial)

* Modelled: `Path_Line`, both constructors.
* Proof: Parameter scaling; straightness; derivatives from C66.
* Result: Start, straightness, velocity, acceleration, speeds and lengths proved; the end frame for displacements and rotations outside the tolerance bands. Violated: with eqradius 0 a pure rotation never happens; the twist constructor does not end at the documented frame.

### C61 Path_Circle follows the documented arc (partial)

* Modelled: `Path_Circle` with its exceptions and `Clone`.
* Proof: Plane geometry of the frame spanned by the two vectors.
* Result: Start, circle, end, plane and derivatives proved (tolerance bands excluded). Violated: V_base_p equal to the centre is accepted; Clone passes degrees for radians and a direction for a point; angle 0 gives NaN.

### C62 Path_Composite runs through its segments (partial)

* Modelled: `Path_Composite` with its cached segment.
* Proof: State machine over call histories.
* Result: Lengths, positions and continuity proved for every call history. Violated: Vel at a corner depends on the calls made before.

### C63 Path_RoundedComposite rounds corners with tangent arcs (partial)

* Modelled: `Path_RoundedComposite` as a sequence of `Add`/`Finish`.
* Proof: Geometry of the tangent circle (`Lemmas/Corner`); invariant over the points added. Legs that turn: `Lemmas/Leg`. Position 1-Lipschitz in the path parameter: segment by segment, then along the joints.
* Result: Tangency, radius, feasibility (also with turning legs, C63_feasible_turn), continuity and the bound of the linear speed (C63_speed_partial) proved outside the tolerance bands. Violated: small corners give a discontinuous path; nearly straight corners throw an undocumented exception after part of the path was appended; Finish after a single point adds a line to the identity frame.

### C64 Path_Cyclic_Closed repeats its path (proved)

* Modelled: `Path_Cyclic_Closed`.
* Proof: `fmod` as the remainder towards zero.
* Result: Proved for every inner path of positive length; length zero gives NaN (C64_zero).

### C65 Trajectories compose paths and velocity profiles (partial)

* Modelled: `Trajectory_Segment`, `_Composite`, `_Stationary`.
* Proof: Chain rule; lookup in the list of end times.
* Result: Segments, durations, evaluation, continuity and velocities proved. Violated: outside the duration Vel reports motion although the position is constant; Destroy keeps the old duration.

### C66 Single axis rotational interpolation (partial)

* Modelled: `RotationalInterpolation_SingleAxis`.
* Proof: C08 and C10.
* Result: Start, properness and derivatives proved; the end rotation outside the tolerance band. Violated: relative rotations below the tolerance are dropped; Clone returns an unset object.

### C68 Jacobi SVD (Macie) and the Givens velocity solver (partial)

* Modelled: `svd_eigen_Macie` and `ChainIkSolverVel_pinv_givens`.
* Proof: Plane rotations keep the product; exit condition is pairwise orthogonality; non-termination by an invariant of the sweep.
* Result: Plane rotations, factorisation, orthogonality on return, termination for two independent columns and least squares on return proved. Violated: linearly dependent columns of a Jacobian make the iteration run forever; the first call of the solver looks at the first rows only; singular values are stale or uninitialised when no rotation was needed.

### C70 Weighted damped velocity solver for trees (partial)

* Modelled: `TreeIkSolverVel_wdls` with its maps of endpoints.
* Proof: Damped normal equations as in C50, stacked Jacobians.
* Result: Damped minimiser proved for all inputs; undamped least squares for independent columns. Violated with the default lambda = 0: redundancy, an unused joint or a documented zero joint weight puts 0/0 into qdot_out with a non-negative return value; an endpoint without a twist dereferences end().

### C71 Newton-Raphson position solver for trees (partial)

* Modelled: `TreeIkSolverPos_NR_JL`.
* Proof: Induction over iterations; state kept between calls.
* Result: Iteration, exits, limits after an update, absence of undefined behaviour and the meaning of the returned distance (all endpoints with goals) proved. Violated: a start outside the limits that meets the goals is returned unchanged (C71_init_violated); endpoints without a goal keep the twist of an earlier call and make later calls fail (C71_stale_violated).

### C72 Runge-Kutta integration of the forward dynamics (partial)

* Modelled: `ChainFdSolver_RNE::RK4Integrator` loop by loop; the solver is a parameter, one function per call.
* Proof: The four stages in closed form, compared with the textbook step for `q' = v, v' = acc(q, v)`; C42 supplies that the real solver computes a function `acc`.
* Result: The step is computed exactly (C72_step). The velocities are those of the classical method (C72_velocity_partial), with the solver itself for every valid chain with positive definite inertias (C72_solver). The positions are not: the second and third velocity are overwritten before they are added, the error is dt^2/6 (2 a3 - a1) (C72_position_error, C72_position_iff), and a mass pushed from rest ends up at 2/3 dt^2 instead of 1/2 dt^2 (C72_position_violated). Failing solver calls go unnoticed (C72_error_violated).

### C67 Text input and output of frames (partial)

* Modelled: Streams as the remaining characters with eofbit and failbit; `_EatSpace`, `Eat`, `EatEnd`, `EatWord`, the trace stack and every `>>`/`<<` of frames_io.cpp, character by character (Model/TextIo.lean). Number formatting is a parameter `NumIo` with the specification `NumOk`, shown satisfiable.
* Proof: Token lists with arbitrary blanks and comments are consumed token by token (`Reads`, `Toks`). Statements about any input are proved by closure of a predicate on readers under bind. Violations by computing the run on symbolic text.
* Result: Round trip of vectors, rotations, frames, twists and wrenches proved for every object and every number format that reads back what it writes (C67_roundtrip), the documented forms with any blanks and comments between the tokens (C67_*_partial), and for any input what acceptance means (C67_accept) and that twists and planar objects cause no undefined behaviour (C67_tidy). Violated: words that fill the buffer write outside of it (C67_word_violated), a stream that has failed sends EatWord into that case (C67_failed_violated), a word at the end of the stream is rejected (C67_end_violated), the character behind a comment is taken for a token (C67_comments_violated), planar rotations are not assigned (C67_rotation2_violated).

### C73 Text input and output of paths, profiles and trajectories (partial)

* Modelled: `Path::Read`, `VelocityProfile::Read`, `Trajectory::Read`, `RotationalInterpolation::Read`, all `Write` members and kinfam_io. Reading has a nesting bound that stands for the recursion depth. A rounded composite carries its lines and circles, which are shown to be those of the object of C63.
* Proof: Induction on the nesting bound with the token lemmas of C67. The members of a re-read line or circle are compared with C60 and C61. Violations by explicit texts.
* Result: Points, lines, circles, composite and cyclic paths, nested to any depth, are read as the path built from the rounded numbers (C73_path_partial), which is the same object if the numbers survive and circles are around the origin (C73_identity_partial); profiles and segments with the parameters of their constructors. Rounded composites are read as the object made by Add of the points and Finish (C73_rounded_partial), or refused (C73_rounded_refused, C73_rounded_infeasible). Violated: rounded composites are written as plain ones (C73_rounded_violated), circles around other points, which are read as another circle (C73_circle_violated) or not at all (C73_circle_lost_violated; C73_circle_rejected says when), the planned motion (C73_duration_violated, C73_uninitialised_violated), splines (C73_spline_violated), profiles at the end of the stream (C73_profile_end_violated), composite and stationary trajectories (C73_rejected_violated), joint arrays (C73_kinfam_violated).

### C74 Hash codes (proved)

* Modelled: `hash_combine` on 64-bit words and all specialisations of `std::hash` of frames.hpp, with the hash of a `double` as a parameter; `operator==` as compiled with KDL_USE_EQUAL (Model/Hash.lean).
* Proof: Cancellation of xor and addition; a function that agrees on objects within epsilon of each other is locally constant along a line of vectors or a one-parameter family of unit quaternions, hence constant.
* Result: What the codes depend on is proved (C74_formula, C74_last, C74_order, C74_rotation). The requirement of std::hash fails: operator== is Equal with tolerance epsilon, and no function but a constant one gives equal vectors, rotations or frames equal codes (C74_*_only_constant); for every hash function of doubles that is not constant there are equal vectors, twists, wrenches with different codes (C74_*_violated).

### C75 Diagonal stiffness (partial)

* Modelled: All members of stiffness.hpp; division by zero is the outcome `none`, as are accesses outside of the array (Model/Stiffness.lean).
* Proof: Componentwise algebra.
* Result: Proved for all stiffnesses without zero entries. With a zero entry, as default constructed, Inverse divides by zero whatever the wrench (C75_inverse_violated); indices are not checked (C75_entries).

### C77 Random objects (partial)

* Modelled: `random`, `posrandom` for doubles and all frame types, with the sequence of values of `rand()/RAND_MAX` as a parameter and the number of calls as the state (Model/Stiffness.lean).
* Proof: Bounds of affine functions; for reachability the sequence is computed from the object wanted.
* Result: Ranges, properness and reachability of every value proved for all sequences of random numbers, except for posrandom(Frame&), which calls random and can give negative coordinates (C77_posframe_violated).

### C76 Robots of the models directory (partial)

* Modelled: The two chains of the models directory, segment by segment, with the default arguments of the constructors; decimal literals are the numbers they denote, `PI_2` is pi/2 (Model/Robots.lean).
* Proof: Forward kinematics by unfolding the loop. Positive definiteness: a vector of rates without kinetic energy leaves link 2 at rest, whose angular velocity contains the rates of joints 1 and 2; the other links are positive definite bodies. KUKA arm: for each link k the energy of link k plus mu(k+1)|v|^2 - rho(k+1)(wx^2+wy^2) of the next frame exceeds mu(k)|v|^2 - rho(k)(wx^2+wy^2) plus a multiple of |w|^2; these quantities are invariant under the rotation of the joint, so the sum telescopes (Props/KukaDynamics.lean).
* Result: Proved for the Puma 560 (C76_puma_*). For the KUKA arm the kinematics are proved (C76_kuka_fk, C76_kuka_elbow, C76_kuka_reach); its links are not physical bodies, the inertia given for the second joint is negative (C76_kuka_inertia_violated), so the full statement is false for it; nevertheless its mass matrix is positive definite in every configuration (C76_kuka_posdef) and its forward dynamics solvable (C76_kuka_dynamics).

### C78 Ownership of paths, profiles and trajectories (partial)

* Modelled: Heap of path, profile and trajectory objects with their pointers and `aggregate` flags; destructors, `Clone`, `Add`, `Destroy`, the constructors that throw, `Path::Read` and `Trajectory::Read` with stack unwinding and `scoped_ptr`; the order of evaluation of constructor arguments is a parameter (Model/Ownership.lean). Numbers are left out: where they decide whether a constructor throws or a read fails, the decision is a parameter. Addresses are not used again after deletion.
* Proof: Ownership trees (Lemmas/Ownership.lean, OwnershipRead.lean): induction over the number of owned objects for delete and Clone, over the input for Read; each step extends the heap by a list of new objects that are all owned by the result, and unwinding removes this list. Violations by evaluation on concrete heaps, the one of the copy constructor for every object that owns something.
* Result: Delete, Add, Destroy, Clone and Read proved for all object trees and inputs outside the violations: clones of circles, composites and cyclic paths that do not own their part leak the new part; an exception while cloning a composite trajectory (or a segment or rounded composite, if the second argument is evaluated first) leaks; the constructor of Path_RoundedComposite leaks when it rejects the equivalent radius, also through Path::Read; the generated copy constructors lead to double deletion; so does adding a part twice.

### C79 Python bindings: element access and pickling (partial)

* Modelled: The lambdas bound as `__getitem__`, `__setitem__`, `getSegment`, `getColumn`, `setColumn`, `getChain` and `py::pickle` (Model/PyBind.lean), on top of the models of the C++ functions they call. The conversion of Python integers to `int` and `unsigned int` raises TypeError outside the range; exceptions, undefined behaviour and results are distinct outcomes. A pickle is a tree of classes and state tuples; the byte format and the behaviour of pybind11 for overloads are not modelled.
* Proof: Index checks by linear integer arithmetic and case distinction over the storage positions. Pickling: `loads (dumps o)` replaces each rotation by `RPY(GetRPY)` and changes nothing else; C06 gives exactness outside the band and the bound 2e-12 inside it. The witness for the violation inside the band is that of C06_rpy_band_inexact.
* Result: Element access proved for all classes and indices (C79_getitem, C79_setitem, C79_getitem2, C79_setitem2, C79_list). getSegment, getColumn and setColumn do not check the index (C79_unchecked_violated), getChain hides the failure for unknown names (C79_getChain_violated). The pickle round trip is exact outside 1e-12 of the gimbal lock (C79_pickle_partial), within 2e-12 and equal for == for all proper rotations (C79_pickle_near, C79_pickle_eq); matrices that are not rotations and some rotations in the band do not come back (C79_pickle_violated).

### C80 Storage of joint-space containers (partial)

* Modelled: Stored numbers as `Option` (none: never written), arrays and Jacobians as lists, inertia matrices with a size (Model/Storage.lean); Eigen assignments as loops over groups of coefficients whose widths are a parameter. Allocation failures are not modelled.
* Proof: List lemmas; invariant of the group loop (done coefficients are final, the others still hold the old values). The violations hold for all arrays and sizes named in the theorem; the in-place product is wrong for every split into two groups.
* Result: Sizes, contents, constructors, SetToZero and in-place arithmetic proved. The documented postcondition of resize (all elements zero) is violated by JntArray, which keeps its numbers, and by JntSpaceInertiaMatrix, whose elements are uninitialised or unchanged (C80_resize_violated); the product of an inertia matrix with an array is wrong in place (C80_mul_violated).

### C81 Display of trees, chains, matrices, velocities and dual numbers (proved)

* Modelled: kinfam_io.cpp (Model/KinfamIo.lean) on top of Model/TextIo.lean, framevel_io.hpp, frameacc_io.hpp, rall1d_io.h, rall2d_io.h (Model/VelIo.lean); the stream has default flags, number formatting is a parameter.
* Proof: Induction over the depth of the recursion: both functions print the depth-first list of Lemmas/Tree.lean, which meets every element once. Chains: the text is split at the first colon, the type name and the tokens of C67; matrices: fields of equal width; velocities and accelerations: by what the readers of C67 make of the text.
* Result: Proved.

### C82 Nested dual numbers and gradients (proved)

* Modelled: The template of rall1d.h over arbitrary value and gradient types given by their operations (Model/RallNested.lean); `Nd n` nests it n times, `vecOps N` has vectors of N doubles as gradient. The members that do not instantiate for nested types (`*=` and `/=` with a dual number, `LinComb`) are left out, as is `abs`; the second half of rallNd.h is not valid C++ and is represented by the type its comment gives.
* Proof: The statement quantifies over all positions in the nested number and refers to `iteratedDeriv`. It is equivalent, for n times differentiable functions, to a recursive form with an explicit derivative function, for which each operation is an induction over the depth with the chain rule at each level. Gradients: Frechet derivatives; atan2 through the complex logarithm.
* Result: Proved.

### C83 Statistics of the Levenberg-Marquardt demonstration (partial)

* Modelled: test_inverseposkin of examples/chainiksolverpos_lma_demo.cpp and display_jac (Model/LmaDemo.lean) on top of the solver model of C52; the random joint values of the trials are the argument, timers and printing are left out.
* Proof: Induction over the trials: the solver stays usable (sizes and parameters unchanged) and each trial is one call in the sense of C52. Successes, iteration counts, weighted and translational extremes: C83_statistics_partial; a success is counted exactly if the pose is reached (C83_success); the counters stay within int (C83_total). Violated: the program counts the codes -1, -2, -3 while the solver returns -100, -101 and E_MAX_ITERATIONS_EXCEEDED, so failures are not counted (C83_failures for all inputs; C83_failures_violated is a trial where the gradient vanishes at the start); the rotational difference is compared with the translational extremes (C83_rot_violated).
* Result: Successes, iteration counts, weighted and translational extremes and display_jac proved. Failures are never counted because the codes differ (C83_failures, C83_failures_violated); the extremes of the rotational difference are wrong (C83_rot_violated).

### C84 scoped_ptr owns its object (proved)

* Modelled: utilities/scoped_ptr.hpp (Model/ScopedPtr.lean): memory as the set of living objects, the ptr_ of every variable in scope and a log of deletions with what the destructors see; a program is a list of operations. Addresses are not reused.
* Proof: Invariant (one owner per living object, every other object once in the log) kept by each operation the ownership rules allow; induction over the program gives C84_owner and C84_no_leak. Each member has its postcondition (C84_construct, C84_release, C84_reset, C84_reset_null, C84_destroy, C84_swap). C84_self_reset and C84_two_owners show that the rules are needed.
* Result: Proved.

### C85 Python programs and the lifetime of what solvers refer to (partial)

* Modelled: Python programs as lists of statements over variables that refer to chains, segments and solvers (Model/PyLife.lean); an object lives as long as a variable refers to it (CPython reference counts, pybind11 default policies); a call reads everything the solver refers to. What the solvers compute is modelled elsewhere.
* Proof: Invariant (every object is held by a variable, references lead to existing objects) kept by all statements but del and reassignment: C85_calls_partial. Violated: C85_dropped_violated for every class built from a chain, C85_subsolver_violated for the Newton-Raphson solvers, C85_getSegment_violated for segments. C85_dangling is the general condition, C85_keep_alive shows that py::keep_alive would repair it.
* Result: Calls are safe in programs that give up no object (C85_calls_partial). Violated otherwise: no constructor is bound with keep_alive (C85_dropped_violated, C85_subsolver_violated); getSegment returns a copy (C85_getSegment_violated).

### C86 Exception classes, their types and what handlers take (partial)

* Modelled: The 38 classes of utilities/error.h with base class, members, constructors and overriders (Model/Errors.lean); virtual calls search from the class of the object upwards; a member never written is a distinct outcome. ioCls and planExc give the classes of what the functions of Model/TextIo.lean and Model/Path.lean throw.
* Proof: C86_types by an inverse function on types and descriptions; C86_infeasible for Not_Feasible(1..6). C86_frames_partial: the set of exceptions of a reader is closed under sequencing. C86_rounded: case analysis of Add, the angle characterised by its cosine. Violated: C86_io_violated (constructor ignores typenr), C86_motion_violated (Error_MotionIO derives from Error). C86_error, C86_dispatch: every class is an Error and every virtual call finds an overrider.
* Result: Types, descriptions, handlers for frames and the documented types of rounded composites proved. Violated: Error_IO never stores its type (C86_io_violated); exceptions for unknown words in paths and trajectories are not Error_IO (C86_motion_violated).

### C87 Eat with a description string (partial)

* Modelled: Eat(is,descript) on the streams of C67 (eatDesc in Model/TextIo.lean).
* Proof: Follows describes accepted texts; induction over it with the blank lemmas of C67 reduces a call to the rest of the description (C87_accepts_partial), and the first departure is computed (C87_unexpected, C87_not_a_space, C87_end). C87_leading_violated: the blanks are skipped before the description is looked at.
* Result: Proved for descriptions that do not begin with a space (C87_accepts_partial); those that do are always rejected (C87_leading_violated).

### C88 Lagrange's equations and conservation of energy (proved)

* Modelled: The recursive Newton-Euler solver, ChainDynParam and the forward dynamics solver as in C39 and C42; kinetic and potential energy as in C43, written with the twists and frames of the segments and not with the solvers.
* Proof: The twist of a segment is differentiated along the positions and rates (Lemmas/Lagrange.lean); the derivative along q of the twist in direction k and the derivative along k of the twist in direction q differ by a cross product, which cancels against the gyroscopic forces of the solver. Conservation: the derivative of the energy is the power of the torques, which vanish.
* Result: Proved.

### C89 Codes, descriptions and the remembered error of the solvers (partial)

* Modelled: The tables of strError of all classes derived from SolverI, and for every function that returns a code which return statements store it in the member error (Model/SolverErrors.lean); the functions themselves are those of the other models. ChainHdSolver_Vereshchagin inherits privately, so its strError cannot be called from outside; it is treated like the others.
* Proof: Returns m e says that some call of the modelled function m returns e. Case analysis over all return statements gives C89_codes; tables without duplicates give C89_texts and C89_described. For the three position solvers the model keeps the member itself and C89_member shows that both descriptions agree.
* Result: Codes, tables and their agreement proved; getError proved for functions that store their code (C89_last_partial). Violated: JntToCoriolis and JntToGravity never store it (C89_dynparam_violated), setLockedJoints of the Jacobian derivative solver does not store a size mismatch (C89_locked_violated), the overloads for vectors return the code of missing convergence for wrong sizes and do not store it (C89_all_violated); for the Newton-Raphson solver see C48_getError_violated.

### C90 The trajectory example runs to its end (proved)

* Modelled: main of examples/trajectory_example.cpp (Model/TrajExample.lean): the calls of Add and Finish, SetProfile, the sampling loop (its number of rounds bounded by an argument, since the program has no bound), the report on the segments, and the memory program (Mem.trajExample). The decimal literals are the numbers they denote; t += dt adds real numbers, so rounding of the loop counter is not modelled.
* Proof: Legs of a path as frames turning uniformly about an axis (Lemmas/Leg): a corner of two legs that is wide enough is accepted by Add and gives line and circle (Leg.corner, stated on frames as C63_feasible_turn); the six frames of the program are five such legs with numerical bounds for the corners (Lemmas/TrajExample). The rounded path moves at most as far as its parameter (C63_speed_partial), the profile is the motion law of C56; induction over the rounds of the sampling loop and over the segments of the report (C90_run, C90_row). Memory: ownership invariant of C78 carried through the program for every list of corners (C90_memory).
* Result: Proved for the program with exact real arithmetic; an exception of Add (which does not occur) would leave the path unreleased, as the catch block only prints.

### C91 Columns of a rotation and the geometry example (partial)

* Modelled: Rotation::UnitX/Y/Z in both overloads and GetEulerZYX (frames.hpp:495-545), and main of examples/geometry.cpp as straight-line code (Model/Geometry.lean): the values of the vectors, the twelve rotations, and what is printed about them. Decimal literals are the numbers they denote, PI is pi; the text of the output is not modelled here (for the operators see C67, C73 and C81).
* Proof: C91_columns, C91_cross, C91_proper (a replaced column leaves a rotation only if it is the old one), C91_ofCols (an equivalence), C91_eulerZYX; for the program C91_vectors, C91_rotations_partial (ten of the twelve matrices), C91_r10, C91_readings, C91_r9_near. Violated by the program: r2 has determinant -1 (C91_r2_violated), r9 is built from an axis of length less than one (C91_r9_violated), and the calls r8.UnitX(v1) etc. store v1 in the columns instead of reading them, so all three printed vectors are the axis of r10 and r8 ends singular (C91_units_violated).
* Result: The statements about columns are proved. The example violates its part: r2 is left-handed, r9 is not exactly orthogonal, and the unit vectors printed for r8 are not its columns.

### C92 The robot programs select the line asked for and compute the torques in two ways alike (partial)

* Modelled: The three programs of the models directory (Model/RobotPrograms.lean). A file is a sequence of words that are numbers or not, with the flags eofbit and failbit and the information whether blanks follow the last word; operator>> for double as the standard describes it since C++11 (a word that is no number stores zero). The loop over the lines is defined by recursion on the distance of the counter from the largest int; overflow is undefined behaviour. A word counts as no number only if it does not begin like one; the text of the output is not modelled.
* Proof: C92_line_partial, C92_program_partial (the whole program when line n exists), C92_torques (from C39_decomposition, for every valid chain), C92_files (exit codes), C92_ask, C92_puma (for every input). Violated: a line number the file does not have silently takes the last line (C92_no_line_violated, C92_wrong_number_violated), a word that is no number is taken for zero or makes the counter overflow (C92_bad_violated), and without an answer an uninitialised variable is read (C92_no_answer_violated).
* Result: Proved when the line asked for exists; a missing line, unreadable data and a missing answer are not noticed by the programs (theorems with suffix _violated). The agreement of the torques is proved for all valid chains.

### C93 Python attributes are views, copies are independent (proved)

* Modelled: Statements of Python programs over the classes Vector, Wrench, Twist, Rotation, Frame, VectorVel, TwistVel, RotationVel, FrameVel (Model/PyView.lean): construction, copies, reading and assigning attributes, methods that change their object, operators and augmented assignments. A variable is a reference to an object and a path of attributes. Trusted: how pybind11 implements def_readwrite (getter by reference_internal, setter by assignment) and how it returns the left operand of an in-place operator; how Python evaluates augmented assignments. doubleVel and joint arrays are left out; a statement that raises an exception ends the program.
* Proof: Lens laws of the attributes (C93_setAttr) lifted to paths; an invariant over all programs (objects keep their class, references lead to values) gives C93_safe; C93_view, C93_frame and C93_others follow from the effects of single statements; C93_copy and C93_binary from the fact that only one variable refers to the new object. C93_inplace, C93_operands, C93_operators, C93_aug, C93_augAttr, C93_meth, C93_assign, C93_assign_detached, C93_attributes, C93_methods, C93_setItem and C93_setItem2 describe the statements.
* Result: Proved for all programs of the modelled statements; pybind11 and the evaluation order of Python are trusted.

### C94 Energy, inertia and Lagrange's equations of a tree (proved)

* Modelled: `TreeIdSolver_RNE::CartToJnt` and `rne_step` as for C36 (Model of the tree inverse dynamics solver); the kinetic and potential energy are defined on the joint positions and velocities through the paths from the root to the bodies, not through the solver.
* Proof: Virtual work: the torques returned are tested with arbitrary rates (from C36); the derivative of the energy along a trajectory is computed body by body and compared; Lagrange's equations from the derivative of the kinetic form in direction of one joint; definiteness by induction along the path to a joint. `strict = false`: the read through the iterator of the parent of the root is taken as harmless, as explained for C36.
* Result: Proved for the solver with the harmless reading of the unused iterator of the root (see C36 for that iterator).

### C95 Infinities and NaN in the position kinematics and in the Newton-Raphson solvers (partial)

* Modelled: A `double` is a real, an infinity or NaN, with the arithmetic, comparisons, `sqrt`, `sin`, `cos` and `atan2` of IEEE 754 and C without rounding and without signed zeros (Model/NonFinite.lean); on them vectors, rotations, frames, `Norm`, `Normalize`, `GetRot`, `diff`, `Equal`, joint and segment poses with finite parameters, the recursive forward solver, the loops of the two Newton-Raphson solvers and the damped velocity solver on finite arguments. The inverse velocity solver is an arbitrary function.
* Proof: A product or sum is finite only if its operands are, so finiteness of a frame is traced back to the joints (C95_fk_finite) and finiteness of a difference to both frames (C95_diff_equal: a column that is not finite makes two components of the rotation axis non-finite, hence its norm NaN). C95_jl_sound and C95_nr_partial follow by induction over the iterations, C95_nan_absorbing likewise. C95_refines and C95_wdls connect the model with those of C47, C48 and C50. Violated: ChainIkSolverPos_NR moves the joints once more after its test, so with the default damped solver at a singular configuration it reports success with NaN for every joint (C95_nr_violated); clamping leaves NaN outside all limits (C95_limits_violated); Equal is not reflexive (C95_equal_refl_violated).
* Result: Proved for ChainIkSolverPos_NR_JL on success; ChainIkSolverPos_NR can report success with NaN joint positions and NR_JL can return NaN on failure (theorems with suffix _violated). Rounding, overflow and signed zeros are not modelled.

### C96 The Levenberg-Marquardt solver never takes up infinities or NaN (proved)

* Modelled: `ChainIkSolverPos_LMA::CartToJnt` on the doubles of Model/NonFinite.lean (Model/NonFiniteLma.lean): forward kinematics, weighted distance, `rho` with its division, the update of `lambda`, the four exits. Increment, gradient and the largest entry of the increment are arbitrary values per iteration, since a decomposition of a matrix with NaN is unspecified.
* Proof: A positive quotient has a finite divisor and a dividend that is not NaN. A finite divisor of `rho` forces a finite increment, and a dividend that is not NaN forces one of the two distances, hence the joint positions and the goal, to be finite (lma_loop, by induction over the iterations). C96_refines shows by induction that every run of the model of C52 is a run of this one, which also checks the treatment of a zero divisor there.
* Result: Rounding and overflow are not modelled.

### C97 Joint limits of the tree solvers with infinities and NaN (partial)

* Modelled: `enforceCartVelLimits`, `enforceJointVelLimits`, the step of `TreeIkSolverPos_Online::CartToJnt` and the loop of `TreeIkSolverPos_NR_JL::CartToJnt` on the doubles of Model/NonFinite.lean (Model/NonFiniteTree.lean). The inverse velocity solver is an arbitrary function; limits and tolerances are finite.
* Proof: The running maximum of the relative overshoot is finite or plus infinity and never NaN. If a rate is infinite, it is plus infinity, the factor is 0, the infinite rate becomes NaN and every other rate 0; otherwise NaN rates are skipped and the factor is that of the finite rates (`C97_rates`, `C97_step`). The limits are therefore respected by every joint with a finite rate and by no other (`C97_limits_partial`, `C97_limits_violated`). For the iterating solver an infinity is cut to a limit and NaN is absorbing (`C97_tree_partial`).
* Result: The limits are not respected by a joint whose rate is infinite or NaN: its position becomes NaN (C97_limits_violated). The last part of C97_tree_partial assumes that the value of the inverse velocity solver is below the tolerance only at finite joint positions.

### C98 Rounding errors of the forward kinematics (proved)

* Modelled: `Joint::pose`, `Segment::pose`, products of frames, rotations and vectors and `ChainFkSolverPos_recursive::JntToCart` with an arbitrary rounding after every operation (Model/Rounding.lean). The ideal chain has exact unit axes and proper tip frames; the stored one differs from it by given errors.
* Proof: Frobenius norm on matrices: `fl(AB)` differs from `AB` by at most `((1+u)^3-1)|A||B|` (Cauchy-Schwarz per entry), multiplication by a proper rotation preserves distances, so the distance grows by a factor of `1+k` per segment around a product of norm `sqrt 3`. Positions accumulate the rotation error times the segment length. `Rot2` is analysed operation by operation. `C98_double` evaluates the bounds.
* Result: Standard model of floating point arithmetic: no overflow, no underflow, no fused multiply-add.

### C99 Rounding errors of the Jacobian (proved)

* Modelled: `ChainJntToJacSolver::JntToJac`, `Segment::twist`, `Joint::twist`, `changeRefPoint`, `Twist::RefPoint`, vector products and differences with an arbitrary rounding after every operation (Model/RoundingJac.lean), on top of Model/Rounding.lean.
* Proof: A computed vector product differs from the exact one by at most `2((1+u)^3-1)|a||b|`; the product is bilinear and not longer than the product of the lengths (Lagrange), which gives the error of one change of the reference point. Loop invariant: after `m` segments every column is within `A` in the angular and `m (1+u)^m V` in the linear part of that of the exact program on the ideal chain, and not longer than `b + m a l`. `C99_derivative` combines this with `C27_derivative`; `C99_joint` and `C99_segment` bound the twists, `C99_double` evaluates the bounds.
* Result: Standard model of floating point arithmetic as in C98; the product with the joint rates is exact.

### C100 Verdict of the inverse position solver in floating point arithmetic (proved)

* Modelled: `ChainIkSolverPos_NR_JL::CartToJnt` with the recursive forward solver, `diff`, `GetRot`, `GetRotAngle`, `Norm`, `Normalize`, `Equal` and `Add` with an arbitrary rounding after every operation (Model/RoundingIk.lean). The velocity solver is an arbitrary function; constants are rounded when read.
* Proof: For a rotation `Q` the vector `2 sin(angle) axis` has the squared length `(3-tr)(1+tr)` and the distance to the identity the square `2(3-tr)`, so turns up to 90 degrees are bounded by that vector. The computed length is accurate up to `8u` relatively or 0 for vectors shorter than 1.74e-6. The three branches of `GetRotAngle`: in the branch of turns by 180 degrees the largest diagonal entry makes the returned vector longer than 1, so the test fails; in the others the length of the returned vector bounds the angle from both sides (`getRot_verdict`, `getRot_upper`). The loop is an induction over the remaining iterations.
* Result: Standard model of floating point arithmetic as in C98. The recursive forward solver is fixed; the velocity solver is arbitrary.

### C101 Local convergence of the Newton-Raphson position solvers (proved)

* Modelled: The forward solver and the Jacobian of C25 and C27, `diff` and `GetRot` of C08 and the loops of C47 and C48, over the reals; the inverse velocity solver is any function that solves its equation near the start (`SolvesNear`).
* Proof: `Moved X X' t a T L` states what a displacement does to a pose: first and second order bounds for the rotation, `L a^2/2 + a T` for the position; it holds for one joint (Taylor bounds of sine and cosine) and is kept by products (Lemmas/NewtonStep.lean), which gives `C101_expansion`; that the linear part is the library's Jacobian times the displacement follows from `C27_derivative` and uniqueness of derivatives. `diff` of two proper frames is either exact to second order or, inside the tolerance of `GetRotAngle`, zero with a rotation of at most 1.733e-6 (`C101_step`). The loops: the deviation falls below `e/4 + 1.733e-6` per step; once it is below 6e-6, two more steps pass the test, because either the rotation is not seen any more or the next step is exact to second order. Travel of the joints is bounded by the sum of the deviations. `screw_setting` is an instance. `C101_pinv`: a bounded right inverse of the Jacobian bounds the non-zero singular values from below and their number by the rank, so `C49_solution` gives an exact solution of least norm.
* Result: Proved over the reals: second order expansion of the forward kinematics with explicit constants, the Newton step, and success of both loops within 11 iterations near a solution; with the pseudo-inverse solver of the library (C101_pinv).

### C102 Solver calls in place (partial)

* Modelled: `Model/InPlace.lean`: the arguments are addresses of arrays in a store (`JntStore`); the backward sweep of the Newton-Euler solver, the forward dynamics solver and the null space solver are written statement by statement, every read taking what the array holds at that moment.  The forward sweeps write to no argument and are taken over from the models on values.  `Model/InPlaceTree.lean` does the same for the recursion of the tree solver, where the reads of one branch come after the writes of the branches before it, and `Model/InPlaceHybrid.lean` for the final sweep of ChainHdSolver_Vereshchagin.
* Proof: Where the output is no input that is read later, the call on objects is shown equal to the call on values followed by one assignment (`C102_inverse`, `C102_coriolis`, `C102_gravity`, `C102_forward`, `C102_nullspace`, `C102_tree`, `C102_hybrid`).  For the tree the two recursions are run in step: the joints written so far are those of the subtrees already left, and subtrees of different children share no joint (`under_disjoint`, from the numbering of C31).  Where it is, the value stored is computed exactly (`C102_inverse_over`, `C102_forward_torques`, `C102_forward_speeds`, `C102_nullspace_over`, `C102_tree_over`; `C102_hybrid_one` for one object as both outputs) and the claim refuted on a motor without a body and on a portal robot with an idle joint (`_violated`).  `C102_inverse_over_partial` and `C102_tree_over_partial` keep the claim for joints without inertia.
* Result: Output over an input: safe for the inverse dynamics solver except over the accelerations, for the tree solver likewise, for Coriolis and gravity terms and the Vereshchagin solver always; refuted for torques over accelerations with joint inertias, for forward dynamics over the torques, for the null space solver over the positions (witnesses), with the value that is stored instead.

### C103 Fixed segments are part of the link they are mounted on (proved)

* Modelled: The solvers of C25-C27 and C39-C42 on two chains; `lump` builds the merged segment with the frame transformation and the sum of inertias of the model (C37).
* Proof: The joint twist of the merged segment in the new tip frame is the old one transformed (`lump_Ss`), hence so are velocities and accelerations; the net wrench of the merged body is the sum of the two (`lump_fl`, from the equivariance C05 and C37), and the power pairing C04 carries the torque over (`lump_rneF`). The rest of the chain is an induction over the segments before. The mass matrix follows from the split of the torques C39, the forward dynamics from C42.
* Result: Proved for all solvers of a chain except the Vereshchagin, articulated body and inverse kinematics ones; trees are not covered.

### C104 Similar motions need similar torques (proved)

* Modelled: The inverse and forward dynamics solvers of C39-C42 and the tree solver of C36; `Chain.heavier` is the chain with all inertias multiplied.
* Proof: Induction over the segments: the velocity of every body is multiplied by `l`, its acceleration by `l^2`, its net wrench by `m l^2` (`rneF_similar`). The special cases are choices of `m` and `l`; time scaling needs the split of C39, the forward dynamics C42. For trees the torques are read off the virtual work of `tree_work` (`C104_tree`); scaling of the inertias of a tree is not stated.
* Result: Proved for the Newton-Euler solvers of chains and trees and for the forward dynamics solver.

### C105 Joint scale and offset are a change of coordinates (proved)

* Modelled: The joint, chain and tree model and the solvers of C25-C27, C36 and C39-C42; `Chain.regauged` is the chain with changed joints, `oldPos`/`byJoint` the change of coordinates.
* Proof: Pose and unit twist of a changed joint are those of the old one at the old coordinate, times `k` (`regauged_pose`, `regauged_twist`); inductions over the loops of the solvers (`fkLoop_regauge`, `fkVelLoop_regauge`, `jacLoop_regauge`, `rneF_regauge`). Mass matrix from the split C39, forward dynamics from C42, trees from the virtual work `tree_work`.
* Result: Proved for the position, velocity, Jacobian, Newton-Euler, ChainDynParam and forward dynamics solvers of chains and for the tree inverse dynamics.

### C106 The dynamics solvers and the Jacobian solver describe the same mechanism (proved)

* Modelled: The solvers of C25-C28, C36 and C39-C42; `TipData` collects the poses and Jacobians the two kinematic solvers report for all segments, `jacTorque` is transposed Jacobian times wrench.
* Proof: The twist of a segment at unit rate of joint `k` is column `k` of its Jacobian, seen in the tip frame (`TipData.twist`, from C27). Wrenches and mass matrix then follow from the energy form of C39/C40, gravity from the derivative of the potential energy (C43) along the motion of joint `k`, the forward dynamics from C42. Trees: virtual work of `tree_work` and C28.
* Result: Proved for the Newton-Euler, ChainDynParam and forward dynamics solvers of chains and for the external wrenches of TreeIdSolver_RNE; trees need at least one moving joint (C35).

### C107 Chains joined by addChain move like their parts (proved)

* Modelled: `Chain.addChain` of C24 and the solvers of C25-C27, C36 and C39.
* Proof: The recursions behind the solvers are split at the joint between the chains and the joint numbers of the second part shifted; products of velocities are associative for proper rotations. A first part at rest only hands on gravity, turned by its pose; the mass matrix block follows from the torques for unit accelerations.
* Result: The Jacobian part is for solvers without locked joints.

### C108 Rounding errors of the forward velocity kinematics (proved)

* Modelled: `ChainFkSolverVel_recursive::JntToCart` and the products and sums of framevel.inl with an arbitrary rounding after every operation (Model/RoundingVel.lean), on top of Model/RoundingJac.lean.
* Proof: Loop invariant: after `m` of `n` segments the ideal angular velocity is at most `m a`, the linear one at most `m (n a l + b)`, and the computed ones are within `m (1+u)^m S` with `S` the error one product adds. `C108_derivative` combines this with `C26_fkVel`; `C108_joint` and `C108_segment` bound the twists (a rate `y` acts like a scale times `y`), `C108_double` evaluates the bounds, `C108_frame` compares the pose with C98, `C108_exact` ties the model to that of C26.
* Result: Standard model of floating point arithmetic as in C98.

### C109 Rounding errors of the inverse dynamics (proved)

* Modelled: `ChainIdSolver_RNE::CartToJnt` and the operations on twists, wrenches and inertias it uses, with an arbitrary rounding after every operation (Model/RoundingDyn.lean); the product of a 3x3 matrix and a vector, left to Eigen, is any function within the error of three roundings (`C109_matvec`: the sum from the left is one). The stored mass data may differ from the ideal ones; the motor inertia is taken as stored.
* Proof: Each operation has a rule for a pair of rational numbers (distance from the ideal value, size of the ideal value) with a soundness lemma (Lemmas/RoundingDyn.lean); `DynB.va`, `DynB.f`, `DynB.F`, `DynB.tau` apply the rules along the sweeps, `C109_torques` follows by induction over both sweeps. `C109_double` gets the hypotheses from C98 and C108 and evaluates the rational bound in the kernel, as do `C109_arm` and `C109_puma` for sizes of an arm; `C109_exact` ties the model to that of C39.
* Result: Standard model of floating point arithmetic as in C98; the inertia of the motors is taken as stored.

### C110 Rounding errors of the tree solvers (proved)

* Modelled: `TreeFkSolverPos_recursive::JntToCart`, `TreeJntToJacSolver::JntToJac` and `changeBase` with an arbitrary rounding after every operation (Model/RoundingTree.lean), over the tree of Model/Tree.lean.
* Proof: The rules of C109 are extended by two for products of frames (`FErr.mul`, `FErr.mulL`: a single segment on the right or on the left, so that the error of the rotation grows linearly with the depth in both directions). `TreeB.pose`, `TreeB.T`, `TreeB.col`, `TreeB.column` apply them along the path; `C110_position` and `C110_jacobian` follow by induction over the path in the ideal tree. `C110_double` gets its hypotheses from C98 and C108 and evaluates the rational bounds in the kernel; `C110_exact` ties the model to that of C34 and C35.
* Result: Standard model of floating point arithmetic as in C98.

### C111 Rounding errors in building an arm (proved)

* Modelled: `Frame::DH`, `Frame::DH_Craig1989`, `Frame::Inverse`, the constructor of `Segment`, of `RigidBodyInertia` and `Puma560()` with an arbitrary rounding after every operation and of every literal (Model/RoundingDH.lean). The scalar product in the constructor of `RigidBodyInertia`, left to Eigen, is summed from the left.
* Proof: `C111_dh` bounds each entry by the error of a rounded product of two numbers with errors; `C111_segment` multiplies by the inverse of the joint at zero with the rules of C110; `C111_mass` composes the rules of C109 along the constructor of `RigidBodyInertia` and evaluates the rational bound in the kernel; `C111_puma` applies all three to the eleven segments, with the literal of `PI_2` compared with bounds of pi from Mathlib. `C111_puma_torques` and `C111_puma_pose` pass the result to C109 and C98. `C111_exact` ties the constructors to the exact ones.
* Result: Standard model of floating point arithmetic as in C98; the scalar product in the constructor of RigidBodyInertia is summed from the left.

### C112 Rounding errors of rotations made from angles and quaternions (proved)

* Modelled: `Rotation::RPY`, `EulerZYX`, `EulerZYZ`, `Quaternion`, `DoRotX`, `DoRotY`, `DoRotZ` with an arbitrary rounding after every operation, products and sums from the left as written (Model/RoundingRot.lean).
* Proof: The rules of C109 and C111 for sums and products are composed along each entry and the rational bounds evaluated in the kernel; the ideal values are products of elementary rotations (C02, C03). `C112_turn` compares with the exact turn of the stored matrix and uses that an exact turn keeps distances; `C112_turns` is an induction over the sequence. `C112_exact` ties the functions to the exact ones.
* Result: Standard model of floating point arithmetic as in C98.

### C113 Rounding errors of moving an inertia (proved)

* Modelled: `Frame * RigidBodyInertia`, `Rotation * RigidBodyInertia` and `RigidBodyInertia::RefPoint` with an arbitrary rounding after every operation (Model/RoundingRbi.lean). Scalar products and products of matrices, left to Eigen, are summed from the left; underflow and overflow are left out.
* Proof: The rules of C109 and C111 for sums and products are applied to every coordinate and entry (`CB`, `MB`), the bound being a rational number computed from the bounds of the arguments (`MoveB`). For double precision it is evaluated in the kernel (`dblM_h`, `dblM_i`).
* Result: Standard model of floating point arithmetic as in C98; sums left to Eigen are taken from the left.

### C114 Rounding errors of Coriolis and gravity torques (proved)

* Modelled: `ChainDynParam::JntToCoriolis` and `JntToGravity` over the inverse dynamics of C109 with an arbitrary rounding after every operation (Model/RoundingDynParam.lean).
* Proof: The zero accelerations, rates and loads are within the ranges of `C109_double` and `C111_puma_torques`, which give the bounds; the sizes are those remembered by the object.
* Result: Standard model of floating point arithmetic as in C98.

### C115 Rounding errors of the joint space inertia matrix (proved)

* Modelled: `ChainDynParam::JntToMass` and the operations on `ArticulatedBodyInertia` it uses, with an arbitrary rounding after every operation (Model/RoundingMass.lean). Products of two matrices, left to Eigen, are summed from the left; products of a matrix and a vector may be summed in any order.
* Proof: Matrices are measured by the Frobenius norm (`NB`): a rotation from either side keeps the norm, so the bound of the composite inertia grows with the length of the chain only through the shift of the origin. The bounds (`DynB.ic`, `wr`, `dg`, `og`) are rational numbers computed along the two loops; the invariant of both loops is that all entries of the two matrices are within the bound. For the Puma they are evaluated in the kernel (`armB_mass`). Symmetry (`C115_symmetric`) needs no assumption on the arithmetic: the outer loop keeps the rows and columns above `k` symmetric, the inner one writes every pair twice with the same number.
* Result: Standard model of floating point arithmetic as in C98; products of matrices are summed from the left, products of a matrix and a vector in any order.

## Trusted base

* The Lean 4 kernel; axioms `propext`, `Classical.choice`, `Quot.sound` only.
* The transcription of the C++ text into the definitions of `Verif/Model` (done by hand, cited by line).
* Doubles as reals, with the exception described for C54.
* The specification of Eigen's routines where they are parameters (stated as hypotheses in the theorems).
