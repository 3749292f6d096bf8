{
 "claims": [
  {
   "property": "C01",
   "status": "proved",
   "theorems": [
    "KDL.C01_rotation_assoc",
    "KDL.C01_rotation_identity",
    "KDL.C01_rotation_action",
    "KDL.C01_inverse_two_sided",
    "KDL.C01_closed",
    "KDL.C01_inverse_overloads",
    "KDL.C01_set_inverse_involutive",
    "KDL.C01_inverse_undoes",
    "KDL.C01_preserves_dot",
    "KDL.C01_preserves_cross",
    "KDL.C01_linear",
    "KDL.C01_columns"
   ],
   "note": "Proved for all matrices / all proper rotations over the reals."
  },
  {
   "property": "C02",
   "status": "proved",
   "theorems": [
    "KDL.C02_rotX",
    "KDL.C02_rotY",
    "KDL.C02_rotZ",
    "KDL.C02_rpy",
    "KDL.C02_eulerZYX",
    "KDL.C02_eulerZYZ",
    "KDL.C02_rot2",
    "KDL.C02_rot",
    "KDL.C02_rotVec",
    "KDL.C02_quaternion",
    "KDL.C02_doRot",
    "KDL.C02_products"
   ],
   "note": "Every constructor yields a proper rotation (unit quaternion / unit axis hypotheses stated where the code needs them)."
  },
  {
   "property": "C03",
   "status": "proved",
   "theorems": [
    "KDL.C03_frame_assoc",
    "KDL.C03_frame_identity",
    "KDL.C03_frame_action",
    "KDL.C03_inverse_two_sided",
    "KDL.C03_inverse_point",
    "KDL.C03_inverse_undoes",
    "KDL.C03_inverse_of_product",
    "KDL.C03_closed",
    "KDL.C03_homogeneous_matrix",
    "KDL.C03_translation_rotation",
    "KDL.C03_integrate_zero",
    "KDL.C03_make4x4"
   ],
   "note": "Proved."
  },
  {
   "property": "C04",
   "status": "proved",
   "theorems": [
    "KDL.C04_twist_action",
    "KDL.C04_wrench_action",
    "KDL.C04_inverse_overloads",
    "KDL.C04_inverse_undoes",
    "KDL.C04_linear",
    "KDL.C04_refpoint_additive",
    "KDL.C04_frame_is_rotation_then_refpoint",
    "KDL.C04_power_frame",
    "KDL.C04_power_inverse_frame",
    "KDL.C04_power_rotation",
    "KDL.C04_power_refpoint"
   ],
   "note": "Proved."
  },
  {
   "property": "C05",
   "status": "proved",
   "theorems": [
    "KDL.C05_antisymmetric",
    "KDL.C05_jacobi",
    "KDL.C05_jacobi_wrench",
    "KDL.C05_duality",
    "KDL.C05_equivariant"
   ],
   "note": "Proved."
  },
  {
   "property": "C06",
   "status": "proved",
   "theorems": [
    "KDL.C06_rpy_roundtrip",
    "KDL.C06_rpy_roundtrip_gimbal",
    "KDL.C06_rpy_ranges",
    "KDL.C06_rpy_left_inverse",
    "KDL.C06_rpy_alternatives",
    "KDL.C06_eulerZYX_is_rpy",
    "KDL.C06_eulerZYZ_alternatives",
    "KDL.C06_zyz_roundtrip",
    "KDL.C06_zyz_roundtrip_singular",
    "KDL.C06_zyz_ranges",
    "KDL.C06_rpy_band",
    "KDL.C06_rpy_band_inexact"
   ],
   "note": "Proved, including the gimbal-lock branches; inside the band of 1e-12 around the gimbal lock RPY(GetRPY(R)) differs from R by at most 2e-12 per entry (C06_rpy_band), and not by nothing (C06_rpy_band_inexact)."
  },
  {
   "property": "C07",
   "status": "proved",
   "theorems": [
    "KDL.C07_unit",
    "KDL.C07_roundtrip",
    "KDL.C07_double_cover",
    "KDL.C07_hamilton",
    "KDL.C07_roundtrip_from_quaternion"
   ],
   "note": "Proved for all four branches of GetQuaternion."
  },
  {
   "property": "C08",
   "status": "partial",
   "theorems": [
    "KDL.C08_roundtrip_regular",
    "KDL.C08_roundtrip_symmetric",
    "KDL.C08_angle_range",
    "KDL.C08_axis_unit",
    "KDL.C08_recovers",
    "KDL.C08_positive_z_violated",
    "KDL.C08_positive_z_partial"
   ],
   "note": "Round trip, angle range and unit axis proved outside the tolerance bands and on exactly symmetric rotations; the documented positive-Z rule at angle PI is refuted by C08_positive_z_violated and holds only when Z dominates."
  },
  {
   "property": "C09",
   "status": "partial",
   "theorems": [
    "KDL.C09_vec",
    "KDL.C09_vec_left",
    "KDL.C09_twist",
    "KDL.C09_wrench",
    "KDL.C09_rot_partial",
    "KDL.C09_frame_partial",
    "KDL.C09_rot_violated"
   ],
   "note": "Proved for vectors, twists, wrenches; for rotations and frames outside the tolerance band; C09_rot_violated refutes the unrestricted statement with a 6e-7 rad rotation about X."
  },
  {
   "property": "C10",
   "status": "proved",
   "theorems": [
    "KDL.C10_additive",
    "KDL.C10_zero",
    "KDL.C10_inverse",
    "KDL.C10_opposite_axis",
    "KDL.C10_fixes_axis",
    "KDL.C10_conjugation",
    "KDL.C10_elementary",
    "KDL.C10_periodic",
    "KDL.C10_rodrigues",
    "KDL.C10_angular_velocity"
   ],
   "note": "Proved, including the time derivative."
  },
  {
   "property": "C11",
   "status": "proved",
   "theorems": [
    "KDL.C11_parts",
    "KDL.C11_conventions",
    "KDL.C11_same_chain",
    "KDL.C11_differ",
    "KDL.C11_dh",
    "KDL.C11_dh_craig",
    "KDL.C11_proper"
   ],
   "note": "Proved."
  },
  {
   "property": "C12",
   "status": "proved",
   "theorems": [
    "KDL.C12_sum",
    "KDL.C12_proper",
    "KDL.C12_doRotX",
    "KDL.C12_doRotY",
    "KDL.C12_doRotZ"
   ],
   "note": "Proved."
  },
  {
   "property": "C13",
   "status": "partial",
   "theorems": [
    "KDL.C13_rot_add",
    "KDL.C13_proper",
    "KDL.C13_rot_inverse",
    "KDL.C13_rot_action",
    "KDL.C13_getRot",
    "KDL.C13_frame",
    "KDL.C13_entry_violated",
    "KDL.C13_frame_entry_violated",
    "KDL.C13_entry_partial",
    "KDL.C13_frame_entry_partial",
    "KDL.C13_lift"
   ],
   "note": "Group laws proved; element access is the transpose of the action (C13_entry_violated)."
  },
  {
   "property": "C14",
   "status": "partial",
   "theorems": [
    "KDL.C14_norm_partial",
    "KDL.C14_norm_violated",
    "KDL.C14_norm_bounds",
    "KDL.C14_norm_rotation",
    "KDL.C14_normalize_unit",
    "KDL.C14_normalize_spec",
    "KDL.C14_normalize_eps_violated",
    "KDL.C14_norm2",
    "KDL.C14_normalize2_unit",
    "KDL.C14_set2D",
    "KDL.C14_set2DPlane_violated",
    "KDL.C14_set3DPlane"
   ],
   "note": "Norm is exact except for x-dominant vectors below eps (C14_norm_violated); Set2DPlane never writes its result (C14_set2DPlane_violated); Normalize ignores an eps below 1e-6 for x-dominant vectors."
  },
  {
   "property": "C15",
   "status": "proved",
   "theorems": [
    "KDL.C15_scalar",
    "KDL.C15_components",
    "KDL.C15_vec",
    "KDL.C15_rot",
    "KDL.C15_frame",
    "KDL.C15_wrench",
    "KDL.C15_twist",
    "KDL.C15_vel",
    "KDL.C15_acc",
    "KDL.C15_components_deriv",
    "KDL.C15_vel_mixed",
    "KDL.C15_acc_mixed",
    "KDL.C15_rall1d",
    "KDL.C15_components_rall",
    "KDL.C15_rall2d"
   ],
   "note": "Proved for scalar, vector, rotation, frame, twist, wrench, the velocity and acceleration types (also mixed with plain types) and Rall1d, Rall2d."
  },
  {
   "property": "C16",
   "status": "proved",
   "theorems": [
    "KDL.C16_const",
    "KDL.C16_add",
    "KDL.C16_sub",
    "KDL.C16_neg",
    "KDL.C16_mul",
    "KDL.C16_div",
    "KDL.C16_scalar",
    "KDL.C16_inplace",
    "KDL.C16_exp",
    "KDL.C16_log",
    "KDL.C16_sin",
    "KDL.C16_cos",
    "KDL.C16_tan",
    "KDL.C16_sinh",
    "KDL.C16_cosh",
    "KDL.C16_tanh",
    "KDL.C16_sqr",
    "KDL.C16_pow",
    "KDL.C16_sqrt",
    "KDL.C16_atan",
    "KDL.C16_asin",
    "KDL.C16_acos",
    "KDL.C16_hypot",
    "KDL.C16_atan2",
    "KDL.C16_constants",
    "KDL.C16_inplace_scalar",
    "KDL.C16_linComb",
    "KDL.C16_inplace_self",
    "KDL.C16_norm"
   ],
   "note": "Proved for every operation of Rall1d that instantiates (abs does not): each result represents the composed curve (value and derivative), also for in-place operators applied to the object itself."
  },
  {
   "property": "C17",
   "status": "partial",
   "theorems": [
    "KDL.C17_const",
    "KDL.C17_add",
    "KDL.C17_neg",
    "KDL.C17_mul",
    "KDL.C17_sub",
    "KDL.C17_div",
    "KDL.C17_scalar",
    "KDL.C17_exp",
    "KDL.C17_sin",
    "KDL.C17_cos",
    "KDL.C17_sinh",
    "KDL.C17_cosh",
    "KDL.C17_log",
    "KDL.C17_tan",
    "KDL.C17_tanh",
    "KDL.C17_sqr",
    "KDL.C17_pow",
    "KDL.C17_sqrt",
    "KDL.C17_atan",
    "KDL.C17_asin",
    "KDL.C17_acos",
    "KDL.C17_hypot",
    "KDL.C17_atan2",
    "KDL.C17_inplace_partial",
    "KDL.C17_mulAssign_violated",
    "KDL.C17_mulAssign_condition",
    "KDL.C17_constants",
    "KDL.C17_linear",
    "KDL.C17_inplace_scalar",
    "KDL.C17_linComb",
    "KDL.C17_inplace_self_partial",
    "KDL.C17_self_violated",
    "KDL.C17_self_condition",
    "KDL.C17_mulAssign_exact",
    "KDL.C17_norm"
   ],
   "note": "Proved for every binary and unary operation with first and second derivative; the in-place product is wrong (C17_mulAssign_violated) and right exactly under C17_mulAssign_condition; x *= x is wrong as well (C17_self_violated, C17_self_condition)."
  },
  {
   "property": "C18",
   "status": "partial",
   "theorems": [
    "KDL.C18_vec_const",
    "KDL.C18_vec_add",
    "KDL.C18_vec_sub",
    "KDL.C18_vec_neg",
    "KDL.C18_vec_cross",
    "KDL.C18_vec_smul",
    "KDL.C18_vec_div",
    "KDL.C18_vec_dot",
    "KDL.C18_vec_norm",
    "KDL.C18_vec_mixed",
    "KDL.C18_rot_const",
    "KDL.C18_rot_mul",
    "KDL.C18_rot_inv",
    "KDL.C18_rot_app",
    "KDL.C18_rot_invVec",
    "KDL.C18_rot_units",
    "KDL.C18_rot_mixed",
    "KDL.C18_rot_elementary_partial",
    "KDL.C18_rot_doRot",
    "KDL.C18_rotY_violated",
    "KDL.C18_rotY_partial",
    "KDL.C18_twist_ops",
    "KDL.C18_twist_div",
    "KDL.C18_twist_get",
    "KDL.C18_rot_twist",
    "KDL.C18_frame_mul",
    "KDL.C18_frame_app",
    "KDL.C18_frame_invVec",
    "KDL.C18_frame_inv",
    "KDL.C18_frame_twist",
    "KDL.C18_frame_mixed",
    "KDL.C18_frame_getTwist",
    "KDL.C18_const",
    "KDL.C18_frame_of",
    "KDL.C18_twist_of",
    "KDL.C18_inplace",
    "KDL.C18_twist_scalar",
    "KDL.C18_twist_mixed"
   ],
   "note": "Every operator represents the composed curve; RotationVel::RotY is refuted (C18_rotY_violated)."
  },
  {
   "property": "C19",
   "status": "partial",
   "theorems": [
    "KDL.C19_vec_const",
    "KDL.C19_vec_add",
    "KDL.C19_vec_neg",
    "KDL.C19_vec_sub",
    "KDL.C19_vec_cross",
    "KDL.C19_vec_smul",
    "KDL.C19_vec_div",
    "KDL.C19_vec_dot",
    "KDL.C19_vec_norm_partial",
    "KDL.C19_vec_norm_violated",
    "KDL.C19_rot_const",
    "KDL.C19_rot_mul",
    "KDL.C19_rot_inv",
    "KDL.C19_rot_app",
    "KDL.C19_rot_invVec",
    "KDL.C19_rot_mixed",
    "KDL.C19_twist_ops",
    "KDL.C19_frame_mul",
    "KDL.C19_frame_app",
    "KDL.C19_frame_invVec",
    "KDL.C19_frame_inv",
    "KDL.C19_frame_twist",
    "KDL.C19_frame_mixed",
    "KDL.C19_const",
    "KDL.C19_vec_of",
    "KDL.C19_frame_of",
    "KDL.C19_frame_get",
    "KDL.C19_twist_get",
    "KDL.C19_inplace",
    "KDL.C19_vec_mixed",
    "KDL.C19_twist_scalar",
    "KDL.C19_rot_twist",
    "KDL.C19_twist_mixed"
   ],
   "note": "Every operator represents value, first and second derivative of the composed curve, the norm where it is not rounded to zero; there VectorAcc::Norm divides by zero where VectorVel::Norm does not (C19_vec_norm_violated)."
  },
  {
   "property": "C20",
   "status": "partial",
   "theorems": [
    "KDL.C20_vec",
    "KDL.C20_rot_partial",
    "KDL.C20_frame_violated",
    "KDL.C20_frame_slots"
   ],
   "note": "Vector and rotation parts hold (rotations outside the C09 tolerance band); the frame version exchanges its two parts (C20_frame_violated)."
  },
  {
   "property": "C21",
   "status": "proved",
   "theorems": [
    "KDL.C21_proper",
    "KDL.C21_twist",
    "KDL.C21_twist_unique",
    "KDL.C21_scale_offset",
    "KDL.C21_axis",
    "KDL.C21_relative_rot",
    "KDL.C21_fixed"
   ],
   "note": "Pose is proper and its derivative is the reported twist, for all joint types with a unit axis."
  },
  {
   "property": "C22",
   "status": "partial",
   "theorems": [
    "KDL.C22_simple",
    "KDL.C22_axis_throws",
    "KDL.C22_axis_ok_partial",
    "KDL.C22_axis_violated"
   ],
   "note": "The axis constructor divides by the axis norm without a check: a zero axis gives NaN (C22_axis_violated); the full behaviour for nonzero axes is C22_axis_ok_partial."
  },
  {
   "property": "C23",
   "status": "proved",
   "theorems": [
    "KDL.C23_pose_zero",
    "KDL.C23_pose",
    "KDL.C23_valid",
    "KDL.C23_twist",
    "KDL.C23_twist_linear",
    "KDL.C23_set_get",
    "KDL.C23_get_set"
   ],
   "note": "Segment pose/twist/frame-to-tip, including that the tip frame is the pose at joint value zero."
  },
  {
   "property": "C24",
   "status": "partial",
   "theorems": [
    "KDL.C24_invariant",
    "KDL.C24_addChain",
    "KDL.C24_copy",
    "KDL.C24_valid",
    "KDL.C24_self_assign_violated",
    "KDL.C24_self_addChain_violated",
    "KDL.C24_mutable_segment_violated",
    "KDL.C24_all_partial"
   ],
   "note": "Counts match the segment list for every sequence of additions, copies and assignments; self-assignment, self-append and writes through getSegment break it (three _violated theorems)."
  },
  {
   "property": "C25",
   "status": "proved",
   "theorems": [
    "KDL.C25_fk",
    "KDL.C25_negative",
    "KDL.C25_proper",
    "KDL.C25_succ",
    "KDL.C25_all",
    "KDL.C25_addChain"
   ],
   "note": "All outcomes of both overloads, for every chain and segment number."
  },
  {
   "property": "C26",
   "status": "proved",
   "theorems": [
    "KDL.C26_fkVel",
    "KDL.C26_errors",
    "KDL.C26_all"
   ],
   "note": "Twist is the derivative of the position solver along every differentiable joint motion; overloads agree."
  },
  {
   "property": "C27",
   "status": "proved",
   "theorems": [
    "KDL.C27_jac",
    "KDL.C27_derivative",
    "KDL.C27_locked",
    "KDL.C27_errors",
    "KDL.C27_update",
    "KDL.C27_setLocked"
   ],
   "note": "J*qdot equals the velocity solver twist and the derivative of the position; locked joints; error codes; update."
  },
  {
   "property": "C28",
   "status": "partial",
   "theorems": [
    "KDL.C28_representation",
    "KDL.C28_update",
    "KDL.C28_update_locked",
    "KDL.C28_jacDot_partial",
    "KDL.C28_twist",
    "KDL.C28_errors",
    "KDL.C28_setLocked",
    "KDL.C28_locked_violated",
    "KDL.C28_qdot_violated"
   ],
   "note": "Proved for all three representations without locked joints; with locked joints no request for the whole chain is ever answered (C28_locked_violated), and the rate array size is not checked (C28_qdot_violated)."
  },
  {
   "property": "C29",
   "status": "proved",
   "theorems": [
    "KDL.C29_change",
    "KDL.C29_member",
    "KDL.C29_multiply",
    "KDL.C29_compose",
    "KDL.C29_frame"
   ],
   "note": "Loops modelled with source = destination allowed."
  },
  {
   "property": "C30",
   "status": "partial",
   "theorems": [
    "KDL.C30_add_sub",
    "KDL.C30_scale",
    "KDL.C30_dual_partial",
    "KDL.C30_motion_partial",
    "KDL.C30_motion_vel_partial",
    "KDL.C30_frame",
    "KDL.C30_inplace",
    "KDL.C30_inplace_condition",
    "KDL.C30_inplace_violated",
    "KDL.C30_equal",
    "KDL.C30_equal_entries",
    "KDL.C30_resize"
   ],
   "note": "Objects have identities so that aliasing is expressible: sums, differences and plain factors hold in place; the dual-number factors hold only when the destination is another object (C30_inplace_violated, C30_inplace_condition)."
  },
  {
   "property": "C31",
   "status": "proved",
   "theorems": [
    "KDL.Tree.C31_numbering",
    "KDL.Tree.C31_counts",
    "KDL.Tree.C31_keys",
    "KDL.Tree.C31_parent_child",
    "KDL.Tree.C31_addSegment_iff",
    "KDL.Tree.C31_addSegment_effect",
    "KDL.Tree.C31_operations_closed",
    "KDL.Tree.C31_addChain_prefix"
   ],
   "note": "Invariant by induction over operation sequences; the map is modelled as the insertion-ordered list of its elements."
  },
  {
   "property": "C32",
   "status": "partial",
   "theorems": [
    "KDL.Tree.C32_self_assignment_violated",
    "KDL.Tree.C32_copy_structure",
    "KDL.Tree.C32_copy_children",
    "KDL.Tree.C32_copy_exact_iff",
    "KDL.Tree.C32_copy_idempotent",
    "KDL.Tree.C32_addTree_success",
    "KDL.Tree.C32_getSubTree",
    "KDL.Tree.C32_copy_numbering_violated",
    "KDL.Tree.C32_copy_numbering_partial"
   ],
   "note": "Structure, child order, idempotence proved; numbers survive exactly for trees built depth first (C32_copy_exact_iff); violated otherwise, and self-assignment empties the tree."
  },
  {
   "property": "C33",
   "status": "partial",
   "theorems": [
    "KDL.Tree.C33_unknown",
    "KDL.Tree.C33_shape",
    "KDL.Tree.C33_kinematics_partial",
    "KDL.Tree.C33_from_root",
    "KDL.Tree.C33_reversed_scale_violated"
   ],
   "note": "Proved when moving joints on the reversed part have scale 1; the scale is dropped otherwise (C33_reversed_scale_violated)."
  },
  {
   "property": "C34",
   "status": "partial",
   "theorems": [
    "KDL.Tree.C34_path",
    "KDL.Tree.C34_fk",
    "KDL.Tree.C34_agrees_with_chain",
    "KDL.Tree.C34_no_joints_violated",
    "KDL.Tree.C34_solver_partial",
    "KDL.Tree.C34_solver_numbering_violated"
   ],
   "note": "Proved for the solver with its own tree; the solver copies the tree, which renumbers joints (C34_solver_numbering_violated); undefined read for trees without joints (C34_no_joints_violated)."
  },
  {
   "property": "C35",
   "status": "partial",
   "theorems": [
    "KDL.Tree.C35_jacobian",
    "KDL.Tree.C35_errors",
    "KDL.Tree.C35_no_joints_violated",
    "KDL.Tree.C35_solver_partial",
    "KDL.Tree.C35_solver_numbering_violated"
   ],
   "note": "Proved for trees with at least one joint, in the numbering of the tree object stored in the solver. Violated: the solver copies the tree, which renumbers the joints of trees not added depth first (C35_solver_numbering_violated); a tree without joints reads element 0 of an empty array (C35_no_joints_violated)."
  },
  {
   "property": "C36",
   "status": "partial",
   "theorems": [
    "KDL.C36_bodyTwist",
    "KDL.C36_keys",
    "KDL.C36_newton",
    "KDL.C36_errors",
    "KDL.C36_outcome_partial",
    "KDL.C36_root_parent_violated",
    "KDL.C36_chain"
   ],
   "note": "Newton-Euler laws for every body, agreement with the chain solver, argument checks and the exact outcome condition are proved for all trees with the reference formed from the root parent iterator taken as harmless. The clause \"no undefined behaviour\" fails: C36_root_parent_violated shows that every accepted call dereferences the singular parent iterator of the root (GetTreeElementParent(seg->second)->first)."
  },
  {
   "property": "C37",
   "status": "proved",
   "theorems": [
    "KDL.C37_momentum",
    "KDL.C37_cog",
    "KDL.C37_linear",
    "KDL.C37_refPoint",
    "KDL.C37_rotation",
    "KDL.C37_frame",
    "KDL.C37_action",
    "KDL.C37_parallel_axis",
    "KDL.C37_energy_frame",
    "KDL.C37_energy",
    "KDL.C37_energy_nonneg"
   ],
   "note": "All operations of RigidBodyInertia as functions of the momentum map; energy of bodies given by mass, centre of gravity and central inertia."
  },
  {
   "property": "C38",
   "status": "proved",
   "theorems": [
    "KDL.C38_ofRBI",
    "KDL.C38_linear",
    "KDL.C38_transform",
    "KDL.C38_ofRBI_ops",
    "KDL.C38_symm",
    "KDL.C38_transform_needs_symm"
   ],
   "note": "All operations of ArticulatedBodyInertia; transformation needs symmetric blocks (C38_transform_needs_symm)."
  },
  {
   "property": "C39",
   "status": "proved",
   "theorems": [
    "KDL.C39_decomposition",
    "KDL.C39_newton",
    "KDL.C39_errors"
   ],
   "note": "Proved for all well formed chains; C39_newton states the physical law along differentiable trajectories; tensors need symmetry only for the decomposition."
  },
  {
   "property": "C40",
   "status": "proved",
   "theorems": [
    "KDL.C40_form",
    "KDL.C40_entries",
    "KDL.C40_symmetric",
    "KDL.C40_psd",
    "KDL.C40_posdef",
    "KDL.C40_body_pd",
    "KDL.C40_errors"
   ],
   "note": "The matrix is identified with the kinetic energy form built from the velocity solver; symmetric, positive (semi)definite."
  },
  {
   "property": "C41",
   "status": "proved",
   "theorems": [
    "KDL.C41_solve",
    "KDL.C41_posdef",
    "KDL.C41_zero_pivot",
    "KDL.C41_needs_symm"
   ],
   "note": "Exact characterisation: solves whenever no pivot is zero, always on positive definite matrices; a zero pivot exhibits a null vector of the form."
  },
  {
   "property": "C42",
   "status": "proved",
   "theorems": [
    "KDL.C42_id_of_fd",
    "KDL.C42_total",
    "KDL.C42_fd_of_id",
    "KDL.C42_errors"
   ],
   "note": "Both compositions proved for a freshly constructed solver; sizes wrong: codes and untouched outputs."
  },
  {
   "property": "C43",
   "status": "proved",
   "theorems": [
    "KDL.C43_gravity_gradient",
    "KDL.C43_power_balance",
    "KDL.C43_coriolis_power"
   ],
   "note": "Power balance and gradient property for arbitrary differentiable trajectories."
  },
  {
   "property": "C44",
   "status": "partial",
   "theorems": [
    "KDL.C44_stale",
    "KDL.C44_update_violated",
    "KDL.C44_update_partial"
   ],
   "note": "Violated: the update forgets the owned solvers and work arrays, so every later call returns E_NOT_UP_TO_DATE (C44_stale). Proved when the sizes do not change."
  },
  {
   "property": "C45",
   "status": "partial",
   "theorems": [
    "KDL.C45_fixed",
    "KDL.C45_fixed_outcome",
    "KDL.C45_total",
    "KDL.C45_shape",
    "KDL.C45_dynamics",
    "KDL.C45_inverse_dynamics",
    "KDL.C45_acceleration",
    "KDL.C45_tip",
    "KDL.C45_tip_out",
    "KDL.C45_coupling",
    "KDL.C45_constraint_partial",
    "KDL.C45_gauss",
    "KDL.C45_command",
    "KDL.C45_forward",
    "KDL.C45_command_partial",
    "KDL.C45_errors",
    "KDL.C45_threshold_violated",
    "KDL.C45_command_violated"
   ],
   "note": "Equations of motion with uniqueness, segment accelerations, Gauss principle, agreement with forward dynamics and totality for massive chains without fixed joints proved; the constraint when every singular value is zero or above the threshold. Violated: constraint_torques is not the command the documentation says (right for the last joint only), attainable constraints with singular values below 1e-14 are dropped with code 0, fixed joints read outside the arrays (exactly when the first or the last segment is fixed) or divide by zero (otherwise)."
  },
  {
   "property": "C46",
   "status": "partial",
   "theorems": [
    "KDL.C46_new",
    "KDL.C46_setInitialMomentum",
    "KDL.C46_step",
    "KDL.C46_total",
    "KDL.C46_recursion",
    "KDL.C46_converges",
    "KDL.C46_rate",
    "KDL.C46_wrench",
    "KDL.C46_held",
    "KDL.C46_static",
    "KDL.C46_start_partial",
    "KDL.C46_start_still_partial",
    "KDL.C46_start_violated",
    "KDL.C46_update",
    "KDL.C46_update_empty_violated",
    "KDL.C46_update_size_violated",
    "KDL.C46_errors",
    "KDL.C46_svd_failed",
    "KDL.C46_torque"
   ],
   "note": "Recursion, convergence with the exact stability limit, rate without filter, least-squares wrench, convergence to the applied wrench for a robot held still, and errors proved. Violated: setInitialMomentum does not store the inertia matrix, so the first sample of a moving robot is wrong by -K*M*qdot for every massive chain (partial: right if the stored matrix is the initial one or the robot stands still); after a change of the number of joints the next estimate depends on uninitialised memory; an estimator without joints cannot be updated."
  },
  {
   "property": "C47",
   "status": "partial",
   "theorems": [
    "KDL.C47_success",
    "KDL.C47_success_chain",
    "KDL.C47_limits",
    "KDL.C47_within",
    "KDL.C47_failure",
    "KDL.C47_default_positive",
    "KDL.C47_default_limits_violated",
    "KDL.C47_update",
    "KDL.C47_setJointLimits",
    "KDL.C47_initial_guess_unclamped",
    "KDL.C47_default_values"
   ],
   "note": "Success, limits and failure proved for every chain and inner solver. Violated: the default limits of the constructor without limits are positive (DBL_MIN..DBL_MAX), so zero is not within them."
  },
  {
   "property": "C48",
   "status": "partial",
   "theorems": [
    "KDL.C48_update",
    "KDL.C48_guards",
    "KDL.C48_converged_partial",
    "KDL.C48_sound_of_stable",
    "KDL.C48_failure",
    "KDL.C48_propagates",
    "KDL.C48_getError_partial",
    "KDL.C48_total",
    "KDL.C48_sound_violated",
    "KDL.C48_getError_violated"
   ],
   "note": "Violated: the update is applied before the convergence test, so q_out may miss the target by more than eps; getError is not set on success after a failure. The weaker success theorem and soundness for inner solvers that return small increments are proved."
  },
  {
   "property": "C49",
   "status": "partial",
   "theorems": [
    "KDL.C49_solution",
    "KDL.C49_code_partial",
    "KDL.C49_exact",
    "KDL.C49_code_small",
    "KDL.C49_singular_violated",
    "KDL.C49_update",
    "KDL.C49_guards"
   ],
   "note": "Minimum norm least squares and exactness proved relative to the documented contract of the decomposition (which is shown to be satisfiable). Violated: with fewer than six joints a singular Jacobian is never reported."
  },
  {
   "property": "C50",
   "status": "partial",
   "theorems": [
    "KDL.C50_small_violated",
    "KDL.C50_default_violated",
    "KDL.C50_weight_violated",
    "KDL.C50_damped_partial",
    "KDL.C50_exact",
    "KDL.C50_update",
    "KDL.C50_update_new",
    "KDL.C50_guards",
    "KDL.C50_setters"
   ],
   "note": "Damped optimality and exactness proved for six joints or more and lambda other than 0. Violated: undefined behaviour below six joints; 0/0 at exactly singular configurations with the default lambda; weight setters accept matrices of the wrong shape."
  },
  {
   "property": "C51",
   "status": "partial",
   "theorems": [
    "KDL.C51_nullspace_partial",
    "KDL.C51_descent_partial",
    "KDL.C51_small_violated",
    "KDL.C51_default",
    "KDL.C51_setters",
    "KDL.C51_new",
    "KDL.C51_update",
    "KDL.C51_guards"
   ],
   "note": "Null space membership and first order descent proved for six joints or more. Violated: write outside an array below six joints."
  },
  {
   "property": "C52",
   "status": "partial",
   "theorems": [
    "KDL.C52_jacobian",
    "KDL.C52_descent",
    "KDL.C52_guards",
    "KDL.C52_immediate",
    "KDL.C52_search",
    "KDL.C52_sound",
    "KDL.C52_sizes",
    "KDL.C52_codes",
    "KDL.C52_gradient",
    "KDL.C52_lastDifference_violated",
    "KDL.C52_lastSV_violated",
    "KDL.C52_lastTransDiff_violated",
    "KDL.C52_maxiter_zero_violated",
    "KDL.C52_maxiter_zero_update_violated",
    "KDL.C52_stall",
    "KDL.C52_gradient_violated"
   ],
   "note": "Step, gain ratio, damping, exits, return codes and monotone error are proved for all inputs. The documentation of the diagnostic members fails: if the start position meets the tolerance, lastDifference is the unweighted error and lastSV stems from whatever jac held before (C52_lastDifference_violated, C52_lastSV_violated); after E_MAX_ITERATIONS_EXCEEDED lastTransDiff is weighted (C52_lastTransDiff_violated); maxiter 0 reads singular values never computed (C52_maxiter_zero_violated). C52_gradient (J^T d is the gradient of the squared error) is proved for equal rotational weights and rotation errors outside the tolerance band of GetRotAngle; with different rotational weights it is not the gradient, and the solver can stop at once with E_INCREMENT_JOINTS_TOO_SMALL where positions nearby are better (C52_stall, C52_gradient_violated). Display output is not modelled."
  },
  {
   "property": "C53",
   "status": "partial",
   "theorems": [
    "KDL.C53_joint_velocity",
    "KDL.C53_cart_inside",
    "KDL.C53_cart_outside",
    "KDL.C53_cart_partial",
    "KDL.C53_cart_equal_limits_partial",
    "KDL.C53_cart_limit_violated",
    "KDL.C53_cart_amplifies_violated",
    "KDL.C53_cart_equal_violated",
    "KDL.C53_keys",
    "KDL.C53_unknown",
    "KDL.C53_call",
    "KDL.C53_limits",
    "KDL.C53_stale",
    "KDL.C53_stale_violated"
   ],
   "note": "Joint rate scaling, one-step result, limits and errors are proved for all inputs and inner solvers. Violated: the Cartesian limits are scaled by the longer component, not by the one exceeding its limit most, so limits stay exceeded, twists may be amplified, and equal lengths are left alone (C53_cart_*_violated; partial where the longer component dominates); endpoints without a goal keep the twist of an earlier call (C53_stale_violated)."
  },
  {
   "property": "C54",
   "status": "partial",
   "theorems": [
    "KDL.C54_total",
    "KDL.C54_total_HH",
    "KDL.C54_error_partial",
    "KDL.C54_error_HH_partial",
    "KDL.C54_two_columns",
    "KDL.C54_two_columns_HH",
    "KDL.C54_converges",
    "KDL.C54_decomposes_partial",
    "KDL.C54_split_violated",
    "KDL.C54_split_HH_violated",
    "KDL.C54_good_violated",
    "KDL.C54_scale_violated",
    "KDL.C54_code_violated",
    "KDL.C54_eps_violated"
   ],
   "note": "Both routines are total, with orthogonal V, orthonormal U and sorted values for every matrix, comparison relation and iteration count (C54_total). The decomposition itself is proved up to an explicit error for norms below 2 and epsilon = 0, with convergence of the iteration with Wilkinson shift proved within an explicit number of iterations (C54_converges, C54_decomposes_partial); with two columns exactly within two iterations. Violated: a value of exactly -2 passes for zero (C54_split_violated), small matrices are not diagonalised because anorm is a bool (C54_scale_violated), thresholds are applied to two different norms (C54_eps_violated), and code -2 depends on maxiter alone (C54_code_violated)."
  },
  {
   "property": "C55",
   "status": "partial",
   "theorems": [
    "KDL.C55_setProfile",
    "KDL.C55_limit_violated",
    "KDL.C55_duration_violated",
    "KDL.C55_setProfileDuration_partial",
    "KDL.C55_clone",
    "KDL.C55_acc"
   ],
   "note": "SetProfile proved. SetProfileDuration violated for backward motions: the limit test ignores the sign and a zero duration gives a negative Duration(); proved for forward or slow enough motions."
  },
  {
   "property": "C56",
   "status": "partial",
   "theorems": [
    "KDL.C56_setProfile",
    "KDL.C56_acc",
    "KDL.C56_time_optimal",
    "KDL.C56_setProfileDuration",
    "KDL.C56_setProfileVelocity",
    "KDL.C56_short_duration",
    "KDL.C56_duration_total_violated",
    "KDL.C56_negative_duration",
    "KDL.C56_clone_violated",
    "KDL.C56_clone_partial",
    "KDL.C56_default"
   ],
   "note": "All planning functions proved for positive limits incl. time optimality. Violated: SetProfileDuration(x,x,0) and hence Clone() of a profile without displacement compute 0/0; proved with a displacement."
  },
  {
   "property": "C57",
   "status": "partial",
   "theorems": [
    "KDL.C57_setProfile",
    "KDL.C57_prolong",
    "KDL.C57_short",
    "KDL.C57_acc_bounded_violated",
    "KDL.C57_acc_bounded_partial",
    "KDL.C57_zero_displacement"
   ],
   "note": "Violated: prolonging a motion too short to reach maxvel exceeds maxacc. Everything else proved; the acceleration bound proved when the distance suffices to reach maxvel."
  },
  {
   "property": "C58",
   "status": "partial",
   "theorems": [
    "KDL.C58_deriv",
    "KDL.C58_cubic",
    "KDL.C58_quintic",
    "KDL.C58_linear_partial",
    "KDL.C58_tiny",
    "KDL.C58_linear_arrives_violated",
    "KDL.C58_setProfile_noop",
    "KDL.C58_clone"
   ],
   "note": "Cubic, quintic and derivative claims proved for all durations above the machine epsilon. Violated: the linear variant with a tiny duration never reaches the end position."
  },
  {
   "property": "C59",
   "status": "partial",
   "theorems": [
    "KDL.C59_jump_partial",
    "KDL.C59_duration",
    "KDL.C59_documented_violated",
    "KDL.C59_clone"
   ],
   "note": "Violated: Vel and Acc throw instead of being zero as documented. Position and the variant with a duration proved."
  },
  {
   "property": "C69",
   "status": "partial",
   "theorems": [
    "KDL.C69_position",
    "KDL.C69_proper",
    "KDL.C69_step_partial",
    "KDL.C69_stall_violated",
    "KDL.C69_axis_violated"
   ],
   "note": "Position update and properness proved for all inputs, the rotation for angular velocities and steps above the machine tolerance of the library. Violated: slow rotations at high sampling rates are dropped; small angular velocities at low rates turn about the x axis."
  },
  {
   "property": "C60",
   "status": "partial",
   "theorems": [
    "KDL.C60_start",
    "KDL.C60_length",
    "KDL.C60_stop_partial",
    "KDL.C60_eqradius_violated",
    "KDL.C60_vel",
    "KDL.C60_acc",
    "KDL.C60_speed",
    "KDL.C60_straight",
    "KDL.C60_axis",
    "KDL.C60_lengthToS",
    "KDL.C60_clone_partial",
    "KDL.C60_point",
    "KDL.C60_twist_partial",
    "KDL.C60_twist_violated"
   ],
   "note": "Start, straightness, velocity, acceleration, speeds and lengths proved; the end frame for displacements and rotations outside the tolerance bands. Violated: with eqradius 0 a pure rotation never happens; the twist constructor does not end at the documented frame."
  },
  {
   "property": "C61",
   "status": "partial",
   "theorems": [
    "KDL.C61_start",
    "KDL.C61_on_circle",
    "KDL.C61_plane_partial",
    "KDL.C61_stop_partial",
    "KDL.C61_vel",
    "KDL.C61_acc",
    "KDL.C61_speed",
    "KDL.C61_lengthToS",
    "KDL.C61_too_small",
    "KDL.C61_no_plane_partial",
    "KDL.C61_no_plane_violated",
    "KDL.C61_clone_violated",
    "KDL.C61_clone_point_violated",
    "KDL.C61_zero_violated"
   ],
   "note": "Start, circle, end, plane and derivatives proved (tolerance bands excluded). Violated: V_base_p equal to the centre is accepted; Clone passes degrees for radians and a direction for a point; angle 0 gives NaN."
  },
  {
   "property": "C62",
   "status": "partial",
   "theorems": [
    "KDL.C62_lengths",
    "KDL.C62_pos",
    "KDL.C62_endpoints",
    "KDL.C62_vel_partial",
    "KDL.C62_motion",
    "KDL.C62_vel_violated",
    "KDL.C62_empty",
    "KDL.C62_range",
    "KDL.C62_clone"
   ],
   "note": "Lengths, positions and continuity proved for every call history. Violated: Vel at a corner depends on the calls made before."
  },
  {
   "property": "C63",
   "status": "partial",
   "theorems": [
    "KDL.C63_corner_partial",
    "KDL.C63_feasible",
    "KDL.C63_path_partial",
    "KDL.C63_finish_violated",
    "KDL.C63_small_violated",
    "KDL.C63_no_plane_violated",
    "KDL.C63_speed_partial",
    "KDL.C63_feasible_turn"
   ],
   "note": "Tangency, radius, feasibility (also with turning legs, C63_feasible_turn), continuity and the bound of the linear speed (C63_speed_partial) proved outside the tolerance bands. Violated: small corners give a discontinuous path; nearly straight corners throw an undocumented exception after part of the path was appended; Finish after a single point adds a line to the identity frame."
  },
  {
   "property": "C64",
   "status": "proved",
   "theorems": [
    "KDL.CyclicClosed.C64_length",
    "KDL.CyclicClosed.C64_cycle",
    "KDL.CyclicClosed.C64_cover",
    "KDL.CyclicClosed.C64_periodic",
    "KDL.CyclicClosed.C64_closed",
    "KDL.CyclicClosed.C64_motion",
    "KDL.CyclicClosed.C64_unrolled",
    "KDL.CyclicClosed.C64_negative",
    "KDL.CyclicClosed.C64_zero",
    "KDL.CyclicClosed.C64_open"
   ],
   "note": "Proved for every inner path of positive length; length zero gives NaN (C64_zero)."
  },
  {
   "property": "C65",
   "status": "partial",
   "theorems": [
    "KDL.C65_segment_vel",
    "KDL.C65_segment_acc",
    "KDL.C65_segment_ends",
    "KDL.C65_line_trap",
    "KDL.TrajComposite.C65_duration",
    "KDL.TrajComposite.C65_pos",
    "KDL.TrajComposite.C65_outside",
    "KDL.TrajComposite.C65_continuous",
    "KDL.TrajComposite.C65_motion",
    "KDL.TrajComposite.C65_empty",
    "KDL.TrajComposite.C65_rest_violated",
    "KDL.TrajComposite.C65_destroy_violated",
    "KDL.TrajComposite.C65_destroy_partial"
   ],
   "note": "Segments, durations, evaluation, continuity and velocities proved. Violated: outside the duration Vel reports motion although the position is constant; Destroy keeps the old duration."
  },
  {
   "property": "C66",
   "status": "partial",
   "theorems": [
    "KDL.C66_start",
    "KDL.C66_stop_partial",
    "KDL.C66_stop_violated",
    "KDL.C66_vel",
    "KDL.C66_acc",
    "KDL.C66_clone_violated",
    "KDL.C66_proper"
   ],
   "note": "Start, properness and derivatives proved; the end rotation outside the tolerance band. Violated: relative rotations below the tolerance are dropped; Clone returns an unset object."
  },
  {
   "property": "C68",
   "status": "partial",
   "theorems": [
    "KDL.C68_rotation",
    "KDL.C68_cols_partial",
    "KDL.C68_rows_partial",
    "KDL.C68_rows_square_partial",
    "KDL.C68_rows_violated",
    "KDL.C68_stale_violated",
    "KDL.C68_singular_violated",
    "KDL.C68_first_violated",
    "KDL.C68_two_partial",
    "KDL.C68_solver_singular_violated",
    "KDL.C68_parallel_violated",
    "KDL.C68_solver_first_violated",
    "KDL.C68_perpendicular_violated",
    "KDL.C68_uninitialised_violated",
    "KDL.C68_redundant_violated",
    "KDL.C68_lsq_partial",
    "KDL.C68_pinv",
    "KDL.C68_guards"
   ],
   "note": "Plane rotations, factorisation, orthogonality on return, termination for two independent columns and least squares on return proved. Violated: linearly dependent columns of a Jacobian make the iteration run forever; the first call of the solver looks at the first rows only; singular values are stale or uninitialised when no rotation was needed."
  },
  {
   "property": "C70",
   "status": "partial",
   "theorems": [
    "KDL.TreeWdls.C70_damped",
    "KDL.TreeWdls.C70_undamped_partial",
    "KDL.TreeWdls.C70_exact_partial",
    "KDL.TreeWdls.C70_new",
    "KDL.TreeWdls.C70_setters",
    "KDL.TreeWdls.C70_guards",
    "KDL.TreeWdls.C70_jac_code",
    "KDL.TreeWdls.C70_missing_twist_violated",
    "KDL.TreeWdls.C70_redundant_violated",
    "KDL.TreeWdls.C70_unused_joint_violated",
    "KDL.TreeWdls.C70_zero_weight_violated",
    "KDL.TreeWdls.C70_zero_weight",
    "KDL.TreeWdls.C70_default_violated"
   ],
   "note": "Damped minimiser proved for all inputs; undamped least squares for independent columns. Violated with the default lambda = 0: redundancy, an unused joint or a documented zero joint weight puts 0/0 into qdot_out with a non-negative return value; an endpoint without a twist dereferences end()."
  },
  {
   "property": "C71",
   "status": "partial",
   "theorems": [
    "KDL.TreeNrJl.C71_new",
    "KDL.TreeNrJl.C71_unknown",
    "KDL.TreeNrJl.C71_result",
    "KDL.TreeNrJl.C71_total",
    "KDL.TreeNrJl.C71_limits_partial",
    "KDL.TreeNrJl.C71_stale",
    "KDL.TreeNrJl.C71_init_violated",
    "KDL.TreeNrJl.C71_distance",
    "KDL.TreeNrJl.C71_stale_fails",
    "KDL.TreeNrJl.C71_library",
    "KDL.TreeNrJl.C71_stale_violated"
   ],
   "note": "Iteration, exits, limits after an update, absence of undefined behaviour and the meaning of the returned distance (all endpoints with goals) proved. Violated: a start outside the limits that meets the goals is returned unchanged (C71_init_violated); endpoints without a goal keep the twist of an earlier call and make later calls fail (C71_stale_violated)."
  },
  {
   "property": "C72",
   "status": "partial",
   "theorems": [
    "KDL.C72_step",
    "KDL.C72_velocity_partial",
    "KDL.C72_position_error",
    "KDL.C72_position_iff",
    "KDL.C72_solver",
    "KDL.C72_position_violated",
    "KDL.C72_error_violated",
    "KDL.C72_work_arrays_partial",
    "KDL.C72_short",
    "KDL.C72_defined"
   ],
   "note": "The step is computed exactly (C72_step). The velocities are those of the classical method (C72_velocity_partial), with the solver itself for every valid chain with positive definite inertias (C72_solver). The positions are not: the second and third velocity are overwritten before they are added, the error is dt^2/6 (2 a3 - a1) (C72_position_error, C72_position_iff), and a mass pushed from rest ends up at 2/3 dt^2 instead of 1/2 dt^2 (C72_position_violated). Failing solver calls go unnoticed (C72_error_violated)."
  },
  {
   "property": "C67",
   "status": "partial",
   "theorems": [
    "KDL.TextIo.C67_open_comment",
    "KDL.TextIo.C67_vector_partial",
    "KDL.TextIo.C67_twist_partial",
    "KDL.TextIo.C67_wrench_partial",
    "KDL.TextIo.C67_rotation_partial",
    "KDL.TextIo.C67_frame_partial",
    "KDL.TextIo.C67_roundtrip",
    "KDL.TextIo.C67_exact",
    "KDL.TextIo.C67_vector2",
    "KDL.TextIo.C67_rotation2_violated",
    "KDL.TextIo.C67_frame2_partial",
    "KDL.TextIo.C67_word_partial",
    "KDL.TextIo.C67_word_violated",
    "KDL.TextIo.C67_failed_violated",
    "KDL.TextIo.C67_vector_violated",
    "KDL.TextIo.C67_zero_partial",
    "KDL.TextIo.C67_identity_partial",
    "KDL.TextIo.C67_euler_partial",
    "KDL.TextIo.C67_rot_partial",
    "KDL.TextIo.C67_dh_partial",
    "KDL.TextIo.C67_unknown_partial",
    "KDL.TextIo.C67_comments_violated",
    "KDL.TextIo.C67_end_violated",
    "KDL.TextIo.C67_tidy",
    "KDL.TextIo.C67_trace_partial",
    "KDL.TextIo.C67_report",
    "KDL.TextIo.C67_report_twist",
    "KDL.TextIo.C67_popstr",
    "KDL.TextIo.C67_accept",
    "KDL.TextIo.C67_slash"
   ],
   "note": "Round trip of vectors, rotations, frames, twists and wrenches proved for every object and every number format that reads back what it writes (C67_roundtrip), the documented forms with any blanks and comments between the tokens (C67_*_partial), and for any input what acceptance means (C67_accept) and that twists and planar objects cause no undefined behaviour (C67_tidy). Violated: words that fill the buffer write outside of it (C67_word_violated), a stream that has failed sends EatWord into that case (C67_failed_violated), a word at the end of the stream is rejected (C67_end_violated), the character behind a comment is taken for a token (C67_comments_violated), planar rotations are not assigned (C67_rotation2_violated)."
  },
  {
   "property": "C73",
   "status": "partial",
   "theorems": [
    "KDL.TextIo.C73_path_partial",
    "KDL.TextIo.C73_identity_partial",
    "KDL.TextIo.C73_circle_violated",
    "KDL.TextIo.C73_profile_partial",
    "KDL.TextIo.C73_profile_end_violated",
    "KDL.TextIo.C73_flag",
    "KDL.TextIo.C73_spline_violated",
    "KDL.TextIo.C73_trajectory_partial",
    "KDL.TextIo.C73_duration_violated",
    "KDL.TextIo.C73_text_violated",
    "KDL.TextIo.C73_uninitialised_violated",
    "KDL.TextIo.C73_rejected_violated",
    "KDL.TextIo.C73_kinfam_violated",
    "KDL.TextIo.C73_jntarray_partial",
    "KDL.TextIo.C73_circle_rejected",
    "KDL.TextIo.C73_circle_lost_violated",
    "KDL.TextIo.C73_written",
    "KDL.TextIo.C73_space",
    "KDL.TextIo.C73_rounded_parts",
    "KDL.TextIo.C73_rounded_partial",
    "KDL.TextIo.C73_rounded_refused",
    "KDL.TextIo.C73_rounded_infeasible",
    "KDL.TextIo.C73_rounded_violated"
   ],
   "note": "Points, lines, circles, composite and cyclic paths, nested to any depth, are read as the path built from the rounded numbers (C73_path_partial), which is the same object if the numbers survive and circles are around the origin (C73_identity_partial); profiles and segments with the parameters of their constructors. Rounded composites are read as the object made by Add of the points and Finish (C73_rounded_partial), or refused (C73_rounded_refused, C73_rounded_infeasible). Violated: rounded composites are written as plain ones (C73_rounded_violated), circles around other points, which are read as another circle (C73_circle_violated) or not at all (C73_circle_lost_violated; C73_circle_rejected says when), the planned motion (C73_duration_violated, C73_uninitialised_violated), splines (C73_spline_violated), profiles at the end of the stream (C73_profile_end_violated), composite and stationary trajectories (C73_rejected_violated), joint arrays (C73_kinfam_violated)."
  },
  {
   "property": "C74",
   "status": "proved",
   "theorems": [
    "KDL.C74_formula",
    "KDL.C74_last",
    "KDL.C74_order",
    "KDL.C74_rotation",
    "KDL.C74_vector_only_constant",
    "KDL.C74_rotation_only_constant",
    "KDL.C74_frame_only_constant",
    "KDL.C74_vector_violated",
    "KDL.C74_vector2_violated",
    "KDL.C74_wrench_violated",
    "KDL.C74_twist_violated",
    "KDL.C74_rotation_violated"
   ],
   "note": "What the codes depend on is proved (C74_formula, C74_last, C74_order, C74_rotation). The requirement of std::hash fails: operator== is Equal with tolerance epsilon, and no function but a constant one gives equal vectors, rotations or frames equal codes (C74_*_only_constant); for every hash function of doubles that is not constant there are equal vectors, twists, wrenches with different codes (C74_*_violated)."
  },
  {
   "property": "C75",
   "status": "partial",
   "theorems": [
    "KDL.C75_inverse_partial",
    "KDL.C75_inverse_violated",
    "KDL.C75_linear",
    "KDL.C75_add",
    "KDL.C75_symmetric",
    "KDL.C75_work",
    "KDL.C75_entries",
    "KDL.C75_series"
   ],
   "note": "Proved for all stiffnesses without zero entries. With a zero entry, as default constructed, Inverse divides by zero whatever the wrench (C75_inverse_violated); indices are not checked (C75_entries)."
  },
  {
   "property": "C77",
   "status": "partial",
   "theorems": [
    "KDL.Random.C77_random",
    "KDL.Random.C77_posrandom_partial",
    "KDL.Random.C77_stiffness",
    "KDL.Random.C77_posframe_violated",
    "KDL.Random.C77_posframe_partial",
    "KDL.Random.C77_reach",
    "KDL.Random.C77_posreach_partial",
    "KDL.Random.C77_rotation_angles"
   ],
   "note": "Ranges, properness and reachability of every value proved for all sequences of random numbers, except for posrandom(Frame&), which calls random and can give negative coordinates (C77_posframe_violated)."
  },
  {
   "property": "C76",
   "status": "partial",
   "theorems": [
    "KDL.C76_kuka_posdef",
    "KDL.C76_kuka_dynamics",
    "KDL.C76_joints",
    "KDL.C76_puma_shape",
    "KDL.C76_puma_fk",
    "KDL.C76_puma_position",
    "KDL.C76_puma_bodies",
    "KDL.C76_puma_posdef",
    "KDL.C76_puma_dynamics",
    "KDL.C76_puma_wrist",
    "KDL.C76_kuka_shape",
    "KDL.C76_kuka_fk",
    "KDL.C76_kuka_elbow",
    "KDL.C76_kuka_reach",
    "KDL.C76_kuka_inertia_violated"
   ],
   "note": "Proved for the Puma 560 (C76_puma_*). For the KUKA arm the kinematics are proved (C76_kuka_fk, C76_kuka_elbow, C76_kuka_reach); its links are not physical bodies, the inertia given for the second joint is negative (C76_kuka_inertia_violated), so the full statement is false for it; nevertheless its mass matrix is positive definite in every configuration (C76_kuka_posdef) and its forward dynamics solvable (C76_kuka_dynamics)."
  },
  {
   "property": "C78",
   "status": "partial",
   "theorems": [
    "KDL.Mem.C78_delete",
    "KDL.Mem.C78_add",
    "KDL.Mem.C78_trajAdd",
    "KDL.Mem.C78_destroy",
    "KDL.Mem.C78_clone_partial",
    "KDL.Mem.C78_clone_delete_partial",
    "KDL.Mem.C78_clone_throw_partial",
    "KDL.Mem.C78_read_partial",
    "KDL.Mem.C78_readTraj_partial",
    "KDL.Mem.C78_clone_leak_violated",
    "KDL.Mem.C78_clone_circle_violated",
    "KDL.Mem.C78_clone_order_violated",
    "KDL.Mem.C78_clone_trajectory_violated",
    "KDL.Mem.C78_rounded_violated",
    "KDL.Mem.C78_copy_violated",
    "KDL.Mem.C78_add_twice_violated"
   ],
   "note": "Delete, Add, Destroy, Clone and Read proved for all object trees and inputs outside the violations: clones of circles, composites and cyclic paths that do not own their part leak the new part; an exception while cloning a composite trajectory (or a segment or rounded composite, if the second argument is evaluated first) leaks; the constructor of Path_RoundedComposite leaks when it rejects the equivalent radius, also through Path::Read; the generated copy constructors lead to double deletion; so does adding a part twice."
  },
  {
   "property": "C79",
   "status": "partial",
   "theorems": [
    "KDL.C79_getitem",
    "KDL.C79_setitem",
    "KDL.C79_getitem2",
    "KDL.C79_setitem2",
    "KDL.C79_list",
    "KDL.C79_unchecked_partial",
    "KDL.C79_unchecked_violated",
    "KDL.C79_getChain_partial",
    "KDL.C79_getChain_violated",
    "KDL.C79_pickle_partial",
    "KDL.C79_pickle_near",
    "KDL.C79_pickle_eq",
    "KDL.C79_pickle_proper",
    "KDL.C79_pickle_violated",
    "KDL.C79_setstate"
   ],
   "note": "Element access proved for all classes and indices (C79_getitem, C79_setitem, C79_getitem2, C79_setitem2, C79_list). getSegment, getColumn and setColumn do not check the index (C79_unchecked_violated), getChain hides the failure for unknown names (C79_getChain_violated). The pickle round trip is exact outside 1e-12 of the gimbal lock (C79_pickle_partial), within 2e-12 and equal for == for all proper rotations (C79_pickle_near, C79_pickle_eq); matrices that are not rotations and some rotations in the band do not come back (C79_pickle_violated)."
  },
  {
   "property": "C80",
   "status": "partial",
   "theorems": [
    "KDL.Store.C80_construct",
    "KDL.Store.C80_resize_size",
    "KDL.Store.C80_resize_content",
    "KDL.Store.C80_resize_zero_partial",
    "KDL.Store.C80_resize_violated",
    "KDL.Store.C80_clear",
    "KDL.Store.C80_aliasing",
    "KDL.Store.C80_mul_partial",
    "KDL.Store.C80_mul_violated"
   ],
   "note": "Sizes, contents, constructors, SetToZero and in-place arithmetic proved. The documented postcondition of resize (all elements zero) is violated by JntArray, which keeps its numbers, and by JntSpaceInertiaMatrix, whose elements are uninitialised or unchanged (C80_resize_violated); the product of an inertia matrix with an array is wrong in place (C80_mul_violated)."
  },
  {
   "property": "C81",
   "status": "proved",
   "theorems": [
    "KDL.KinfamIo.C81_tree2str",
    "KDL.KinfamIo.C81_tree",
    "KDL.KinfamIo.C81_matrix",
    "KDL.KinfamIo.C81_chain",
    "KDL.C81_vel",
    "KDL.C81_acc",
    "KDL.C81_rall"
   ],
   "note": "Proved."
  },
  {
   "property": "C82",
   "status": "proved",
   "theorems": [
    "KDL.C82_construct",
    "KDL.C82_unique",
    "KDL.C82_const",
    "KDL.C82_ofVal",
    "KDL.C82_add",
    "KDL.C82_sub",
    "KDL.C82_mul",
    "KDL.C82_div",
    "KDL.C82_neg",
    "KDL.C82_scalar",
    "KDL.C82_inplace",
    "KDL.C82_exp",
    "KDL.C82_log",
    "KDL.C82_sin",
    "KDL.C82_cos",
    "KDL.C82_tan",
    "KDL.C82_sinh",
    "KDL.C82_cosh",
    "KDL.C82_tanh",
    "KDL.C82_sqr",
    "KDL.C82_pow",
    "KDL.C82_sqrt",
    "KDL.C82_atan",
    "KDL.C82_asin",
    "KDL.C82_acos",
    "KDL.C82_hypot",
    "KDL.C82_atan2",
    "KDL.C82_norm",
    "KDL.C82_equal",
    "KDL.C82_first",
    "KDL.C82_grad_var",
    "KDL.C82_grad_const",
    "KDL.C82_grad_add",
    "KDL.C82_grad_neg",
    "KDL.C82_grad_sub",
    "KDL.C82_grad_mul",
    "KDL.C82_grad_div",
    "KDL.C82_grad_scalar",
    "KDL.C82_grad_exp",
    "KDL.C82_grad_log",
    "KDL.C82_grad_sin",
    "KDL.C82_grad_cos",
    "KDL.C82_grad_tan",
    "KDL.C82_grad_sinh",
    "KDL.C82_grad_cosh",
    "KDL.C82_grad_sqrt",
    "KDL.C82_grad_atan",
    "KDL.C82_grad_asin",
    "KDL.C82_grad_acos",
    "KDL.C82_grad_tanh",
    "KDL.C82_grad_sqr",
    "KDL.C82_grad_pow",
    "KDL.C82_grad_hypot",
    "KDL.C82_grad_atan2",
    "KDL.C82_grad_inplace",
    "KDL.C82_grad_equal"
   ],
   "note": "Proved."
  },
  {
   "property": "C83",
   "status": "partial",
   "theorems": [
    "KDL.C83_display",
    "KDL.C83_statistics_partial",
    "KDL.C83_success",
    "KDL.C83_total",
    "KDL.C83_failures",
    "KDL.C83_failures_violated",
    "KDL.C83_rot_violated"
   ],
   "note": "Successes, iteration counts, weighted and translational extremes and display_jac proved. Failures are never counted because the codes differ (C83_failures, C83_failures_violated); the extremes of the rotational difference are wrong (C83_rot_violated)."
  },
  {
   "property": "C84",
   "status": "proved",
   "theorems": [
    "KDL.Sp.C84_owner",
    "KDL.Sp.C84_no_leak",
    "KDL.Sp.C84_construct",
    "KDL.Sp.C84_release",
    "KDL.Sp.C84_reset",
    "KDL.Sp.C84_reset_null",
    "KDL.Sp.C84_destroy",
    "KDL.Sp.C84_swap",
    "KDL.Sp.C84_self_reset",
    "KDL.Sp.C84_two_owners"
   ],
   "note": "Proved."
  },
  {
   "property": "C85",
   "status": "partial",
   "theorems": [
    "KDL.PyLife.C85_calls_partial",
    "KDL.PyLife.C85_keep_alive",
    "KDL.PyLife.C85_dangling",
    "KDL.PyLife.C85_dropped_violated",
    "KDL.PyLife.C85_subsolver_violated",
    "KDL.PyLife.C85_classes",
    "KDL.PyLife.C85_argument_types",
    "KDL.PyLife.C85_refused",
    "KDL.PyLife.C85_getSegment_violated",
    "KDL.PyLife.C85_shared",
    "KDL.PyLife.C85_refers"
   ],
   "note": "Calls are safe in programs that give up no object (C85_calls_partial). Violated otherwise: no constructor is bound with keep_alive (C85_dropped_violated, C85_subsolver_violated); getSegment returns a copy (C85_getSegment_violated)."
  },
  {
   "property": "C86",
   "status": "partial",
   "theorems": [
    "KDL.Err.C86_types",
    "KDL.Err.C86_infeasible",
    "KDL.Err.C86_io_violated",
    "KDL.Err.C86_io_message",
    "KDL.Err.C86_frames_partial",
    "KDL.Err.C86_motion_violated",
    "KDL.Err.C86_error",
    "KDL.Err.C86_handler",
    "KDL.Err.C86_read_types",
    "KDL.Err.C86_dispatch",
    "KDL.Err.C86_rounded",
    "KDL.Err.C86_rounded_new",
    "KDL.Err.C86_circle"
   ],
   "note": "Types, descriptions, handlers for frames and the documented types of rounded composites proved. Violated: Error_IO never stores its type (C86_io_violated); exceptions for unknown words in paths and trajectories are not Error_IO (C86_motion_violated)."
  },
  {
   "property": "C87",
   "status": "partial",
   "theorems": [
    "KDL.TextIo.C87_accepts_partial",
    "KDL.TextIo.C87_unexpected",
    "KDL.TextIo.C87_not_a_space",
    "KDL.TextIo.C87_end",
    "KDL.TextIo.C87_leading_violated"
   ],
   "note": "Proved for descriptions that do not begin with a space (C87_accepts_partial); those that do are always rejected (C87_leading_violated)."
  },
  {
   "property": "C88",
   "status": "proved",
   "theorems": [
    "KDL.C88_lagrange",
    "KDL.C88_christoffel",
    "KDL.C88_conserved"
   ],
   "note": "Proved."
  },
  {
   "property": "C89",
   "status": "partial",
   "theorems": [
    "KDL.SolverErr.C89_distinct",
    "KDL.SolverErr.C89_codes",
    "KDL.SolverErr.C89_texts",
    "KDL.SolverErr.C89_described",
    "KDL.SolverErr.C89_own_texts",
    "KDL.SolverErr.C89_last_partial",
    "KDL.SolverErr.C89_member",
    "KDL.SolverErr.C89_dynparam_violated",
    "KDL.SolverErr.C89_locked_violated",
    "KDL.SolverErr.C89_all_violated"
   ],
   "note": "Codes, tables and their agreement proved; getError proved for functions that store their code (C89_last_partial). Violated: JntToCoriolis and JntToGravity never store it (C89_dynparam_violated), setLockedJoints of the Jacobian derivative solver does not store a size mismatch (C89_locked_violated), the overloads for vectors return the code of missing convergence for wrong sizes and do not store it (C89_all_violated); for the Newton-Raphson solver see C48_getError_violated."
  },
  {
   "property": "C90",
   "status": "proved",
   "theorems": [
    "KDL.C90_row",
    "KDL.C90_run",
    "KDL.Mem.C90_memory"
   ],
   "note": "Proved for the program with exact real arithmetic; an exception of Add (which does not occur) would leave the path unreleased, as the catch block only prints."
  },
  {
   "property": "C91",
   "status": "partial",
   "theorems": [
    "KDL.C91_columns",
    "KDL.C91_cross",
    "KDL.C91_proper",
    "KDL.C91_ofCols",
    "KDL.C91_eulerZYX",
    "KDL.Geometry.C91_vectors",
    "KDL.Geometry.C91_rotations_partial",
    "KDL.Geometry.C91_r2_violated",
    "KDL.Geometry.C91_r9_violated",
    "KDL.Geometry.C91_r9_near",
    "KDL.Geometry.C91_r10",
    "KDL.Geometry.C91_readings",
    "KDL.Geometry.C91_units_violated"
   ],
   "note": "The statements about columns are proved. The example violates its part: r2 is left-handed, r9 is not exactly orthogonal, and the unit vectors printed for r8 are not its columns."
  },
  {
   "property": "C92",
   "status": "partial",
   "theorems": [
    "KDL.RobotPrograms.C92_line_partial",
    "KDL.RobotPrograms.C92_no_line_violated",
    "KDL.RobotPrograms.C92_bad_violated",
    "KDL.RobotPrograms.C92_torques",
    "KDL.RobotPrograms.C92_program_partial",
    "KDL.RobotPrograms.C92_files",
    "KDL.RobotPrograms.C92_no_answer_violated",
    "KDL.RobotPrograms.C92_wrong_number_violated",
    "KDL.RobotPrograms.C92_ask",
    "KDL.RobotPrograms.C92_puma",
    "KDL.RobotPrograms.C92_answer_violated"
   ],
   "note": "Proved when the line asked for exists; a missing line, unreadable data and a missing answer are not noticed by the programs (theorems with suffix _violated). The agreement of the torques is proved for all valid chains."
  },
  {
   "property": "C93",
   "status": "proved",
   "theorems": [
    "KDL.PyView.C93_attributes",
    "KDL.PyView.C93_setAttr",
    "KDL.PyView.C93_safe",
    "KDL.PyView.C93_view",
    "KDL.PyView.C93_others",
    "KDL.PyView.C93_frame",
    "KDL.PyView.C93_copy",
    "KDL.PyView.C93_binary",
    "KDL.PyView.C93_assign",
    "KDL.PyView.C93_assign_detached",
    "KDL.PyView.C93_meth",
    "KDL.PyView.C93_setItem",
    "KDL.PyView.C93_setItem2",
    "KDL.PyView.C93_methods",
    "KDL.PyView.C93_operands",
    "KDL.PyView.C93_operators",
    "KDL.PyView.C93_inplace",
    "KDL.PyView.C93_aug",
    "KDL.PyView.C93_augAttr"
   ],
   "note": "Proved for all programs of the modelled statements; pybind11 and the evaluation order of Python are trusted."
  },
  {
   "property": "C94",
   "status": "proved",
   "theorems": [
    "KDL.C94_power_balance",
    "KDL.C94_inertia",
    "KDL.C94_symmetric",
    "KDL.C94_reciprocal",
    "KDL.C94_momentum",
    "KDL.C94_lagrange",
    "KDL.C94_psd",
    "KDL.C94_posdef",
    "KDL.C94_injective",
    "KDL.C94_gravity_gradient",
    "KDL.C94_external",
    "KDL.C94_conservation"
   ],
   "note": "Proved for the solver with the harmless reading of the unused iterator of the root (see C36 for that iterator)."
  },
  {
   "property": "C95",
   "status": "partial",
   "theorems": [
    "KDL.C95_equal",
    "KDL.C95_equal_refl_violated",
    "KDL.C95_fk_real",
    "KDL.C95_fk_finite",
    "KDL.C95_diff_proper",
    "KDL.C95_diff_equal",
    "KDL.C95_nr_partial",
    "KDL.C95_jl_sound",
    "KDL.C95_nan_absorbing",
    "KDL.C95_limits_partial",
    "KDL.C95_wdls",
    "KDL.C95_nr_violated",
    "KDL.C95_limits_violated",
    "KDL.C95_refines"
   ],
   "note": "Proved for ChainIkSolverPos_NR_JL on success; ChainIkSolverPos_NR can report success with NaN joint positions and NR_JL can return NaN on failure (theorems with suffix _violated). Rounding, overflow and signed zeros are not modelled."
  },
  {
   "property": "C96",
   "status": "proved",
   "theorems": [
    "KDL.C96_lma",
    "KDL.C96_lma_refused",
    "KDL.C96_lma_ends",
    "KDL.C96_refines"
   ],
   "note": "Rounding and overflow are not modelled."
  },
  {
   "property": "C97",
   "status": "partial",
   "theorems": [
    "KDL.C97_rates",
    "KDL.C97_step",
    "KDL.C97_refused",
    "KDL.C97_limits_partial",
    "KDL.C97_limits_violated",
    "KDL.C97_cart",
    "KDL.C97_tree_partial",
    "KDL.C97_unlimited"
   ],
   "note": "The limits are not respected by a joint whose rate is infinite or NaN: its position becomes NaN (C97_limits_violated). The last part of C97_tree_partial assumes that the value of the inverse velocity solver is below the tolerance only at finite joint positions."
  },
  {
   "property": "C98",
   "status": "proved",
   "theorems": [
    "KDL.C98_fk",
    "KDL.C98_orthogonal",
    "KDL.C98_joint",
    "KDL.C98_segment",
    "KDL.C98_exact",
    "KDL.C98_double"
   ],
   "note": "Standard model of floating point arithmetic: no overflow, no underflow, no fused multiply-add."
  },
  {
   "property": "C99",
   "status": "proved",
   "theorems": [
    "KDL.C99_jac",
    "KDL.C99_derivative",
    "KDL.C99_exact",
    "KDL.C99_joint",
    "KDL.C99_segment",
    "KDL.C99_double"
   ],
   "note": "Standard model of floating point arithmetic as in C98; the product with the joint rates is exact."
  },
  {
   "property": "C100",
   "status": "proved",
   "theorems": [
    "KDL.C100_verdict",
    "KDL.C100_recognised",
    "KDL.C100_limits",
    "KDL.C100_codes",
    "KDL.C100_exact",
    "KDL.C100_double",
    "KDL.C100_band"
   ],
   "note": "Standard model of floating point arithmetic as in C98. The recursive forward solver is fixed; the velocity solver is arbitrary."
  },
  {
   "property": "C101",
   "status": "proved",
   "theorems": [
    "KDL.C101_expansion",
    "KDL.C101_step",
    "KDL.C101_converges",
    "KDL.C101_converges_jl",
    "KDL.C101_pinv"
   ],
   "note": "Proved over the reals: second order expansion of the forward kinematics with explicit constants, the Newton step, and success of both loops within 11 iterations near a solution; with the pseudo-inverse solver of the library (C101_pinv)."
  },
  {
   "property": "C102",
   "status": "partial",
   "theorems": [
    "KDL.C102_inverse",
    "KDL.C102_coriolis",
    "KDL.C102_gravity",
    "KDL.C102_inverse_over",
    "KDL.C102_inverse_over_partial",
    "KDL.C102_inverse_violated",
    "KDL.C102_hybrid",
    "KDL.C102_hybrid_one",
    "KDL.C102_forward",
    "KDL.C102_forward_torques",
    "KDL.C102_forward_speeds",
    "KDL.C102_forward_violated",
    "KDL.C102_nullspace",
    "KDL.C102_nullspace_over",
    "KDL.C102_nullspace_violated",
    "KDL.C102_tree",
    "KDL.C102_tree_over",
    "KDL.C102_tree_over_partial",
    "KDL.C102_tree_violated"
   ],
   "note": "Output over an input: safe for the inverse dynamics solver except over the accelerations, for the tree solver likewise, for Coriolis and gravity terms and the Vereshchagin solver always; refuted for torques over accelerations with joint inertias, for forward dynamics over the torques, for the null space solver over the positions (witnesses), with the value that is stored instead."
  },
  {
   "property": "C103",
   "status": "proved",
   "theorems": [
    "KDL.C103_position",
    "KDL.C103_velocity",
    "KDL.C103_jacobian",
    "KDL.C103_inverse",
    "KDL.C103_coriolis_gravity",
    "KDL.C103_mass",
    "KDL.C103_massive",
    "KDL.C103_forward",
    "KDL.C103_base_position",
    "KDL.C103_base_jacobian",
    "KDL.C103_base_inverse"
   ],
   "note": "Proved for all solvers of a chain except the Vereshchagin, articulated body and inverse kinematics ones; trees are not covered."
  },
  {
   "property": "C104",
   "status": "proved",
   "theorems": [
    "KDL.C104_similarity",
    "KDL.C104_reversal",
    "KDL.C104_coriolis",
    "KDL.C104_time_scaling",
    "KDL.C104_forward",
    "KDL.C104_tree"
   ],
   "note": "Proved for the Newton-Euler solvers of chains and trees and for the forward dynamics solver."
  },
  {
   "property": "C105",
   "status": "proved",
   "theorems": [
    "KDL.C105_position",
    "KDL.C105_velocity",
    "KDL.C105_jacobian",
    "KDL.C105_inverse",
    "KDL.C105_bias",
    "KDL.C105_forward",
    "KDL.C105_mass",
    "KDL.C105_tree"
   ],
   "note": "Proved for the position, velocity, Jacobian, Newton-Euler, ChainDynParam and forward dynamics solvers of chains and for the tree inverse dynamics."
  },
  {
   "property": "C106",
   "status": "proved",
   "theorems": [
    "KDL.C106_data",
    "KDL.C106_wrenches",
    "KDL.C106_tip",
    "KDL.C106_mass",
    "KDL.C106_gravity",
    "KDL.C106_forward",
    "KDL.C106_tree"
   ],
   "note": "Proved for the Newton-Euler, ChainDynParam and forward dynamics solvers of chains and for the external wrenches of TreeIdSolver_RNE; trees need at least one moving joint (C35)."
  },
  {
   "property": "C107",
   "status": "proved",
   "theorems": [
    "KDL.C107_position",
    "KDL.C107_velocity",
    "KDL.C107_jacobian",
    "KDL.C107_inverse",
    "KDL.C107_gravity",
    "KDL.C107_mass",
    "KDL.C107_massless"
   ],
   "note": "The Jacobian part is for solvers without locked joints."
  },
  {
   "property": "C108",
   "status": "proved",
   "theorems": [
    "KDL.C108_vel",
    "KDL.C108_derivative",
    "KDL.C108_frame",
    "KDL.C108_exact",
    "KDL.C108_joint",
    "KDL.C108_segment",
    "KDL.C108_double"
   ],
   "note": "Standard model of floating point arithmetic as in C98."
  },
  {
   "property": "C109",
   "status": "proved",
   "theorems": [
    "KDL.C109_arm",
    "KDL.C109_puma",
    "KDL.C109_torques",
    "KDL.C109_exact",
    "KDL.C109_matvec",
    "KDL.C109_double"
   ],
   "note": "Standard model of floating point arithmetic as in C98; the inertia of the motors is taken as stored."
  },
  {
   "property": "C110",
   "status": "proved",
   "theorems": [
    "KDL.C110_position",
    "KDL.C110_jacobian",
    "KDL.C110_exact",
    "KDL.C110_double"
   ],
   "note": "Standard model of floating point arithmetic as in C98."
  },
  {
   "property": "C111",
   "status": "proved",
   "theorems": [
    "KDL.C111_mass",
    "KDL.C111_dh",
    "KDL.C111_segment",
    "KDL.C111_puma",
    "KDL.C111_puma_torques",
    "KDL.C111_puma_pose",
    "KDL.C111_exact"
   ],
   "note": "Standard model of floating point arithmetic as in C98; the scalar product in the constructor of RigidBodyInertia is summed from the left."
  },
  {
   "property": "C112",
   "status": "proved",
   "theorems": [
    "KDL.C112_rpy",
    "KDL.C112_eulerZYX",
    "KDL.C112_eulerZYZ",
    "KDL.C112_quaternion",
    "KDL.C112_turn",
    "KDL.C112_turns",
    "KDL.C112_exact"
   ],
   "note": "Standard model of floating point arithmetic as in C98."
  },
  {
   "property": "C113",
   "status": "proved",
   "theorems": [
    "KDL.C113_refPoint",
    "KDL.C113_frame",
    "KDL.C113_rotation",
    "KDL.C113_double",
    "KDL.C113_exact"
   ],
   "note": "Standard model of floating point arithmetic as in C98; sums left to Eigen are taken from the left."
  },
  {
   "property": "C114",
   "status": "proved",
   "theorems": [
    "KDL.C114_coriolis",
    "KDL.C114_gravity",
    "KDL.C114_puma",
    "KDL.C114_exact"
   ],
   "note": "Standard model of floating point arithmetic as in C98."
  },
  {
   "property": "C115",
   "status": "proved",
   "theorems": [
    "KDL.C115_mass",
    "KDL.C115_double",
    "KDL.C115_puma",
    "KDL.C115_exact",
    "KDL.C115_symmetric"
   ],
   "note": "Standard model of floating point arithmetic as in C98; products of matrices are summed from the left, products of a matrix and a vector in any order."
  }
 ]
}
