import Verif.Lemmas.Chain

/-! C21 (joints), C22 (joint constructors), C23 (segments). -/

namespace KDL
open Real

/-! ## C21 -/

/-- The pose of a joint is a proper frame. -/
theorem C21_proper (j : Joint) (h : j.Valid) (q : ℝ) : (j.pose q).IsProper := Joint.isProper_pose h q
/-- The derivative of the pose along any differentiable motion is `twist(qdot)`. -/
theorem C21_twist (j : Joint) (h : j.Valid) (q : ℝ → ℝ) (q' τ : ℝ) (hq : HasDerivAt q q' τ) :
    Frame.HasTwist (fun s => j.pose (q s)) (j.twist q') τ := Joint.hasTwist h hq
/-- … and is the only such twist. -/
theorem C21_twist_unique (j : Joint) (h : j.Valid) (q : ℝ → ℝ) (q' τ : ℝ) (hq : HasDerivAt q q' τ) (t : Twist)
    (ht : Frame.HasTwist (fun s => j.pose (q s)) t τ) : t = j.twist q' := by
  have h1 := Joint.hasTwist h hq
  ext1
  · exact ht.vel.unique h1.vel
  · exact Rot.HasAngVel.unique ht.rot h1.rot (Joint.isProper_pose h _)
/-- Scale and offset: the pose at `q` is the pose at `scale*q+offset` of the joint with scale one and offset zero. -/
theorem C21_scale_offset (j : Joint) (q : ℝ) :
    j.pose q = ({ j with scale := 1, offset := 0 } : Joint).pose (j.scale * q + j.offset) := by
  cases ht : j.type <;> simp [Joint.pose, ht]
/-- Motion moves along / about `JointAxis`, scaled: the twist of a rotational (translational) joint is the axis times
`scale*qdot` in the rotational (translational) part and zero in the other. -/
theorem C21_axis (j : Joint) (qd : ℝ) :
    (j.type ∈ [JointType.RotAxis, .RotX, .RotY, .RotZ] → j.twist qd = ⟨0, (j.scale * qd) • j.jointAxis⟩) ∧
    (j.type ∈ [JointType.TransAxis, .TransX, .TransY, .TransZ] → j.twist qd = ⟨(j.scale * qd) • j.jointAxis, 0⟩) ∧
    (j.type = .Fixed → j.twist qd = 0) := by
  cases ht : j.type <;> simp [Joint.twist, Joint.jointAxis, ht, Vec.ext_iff]
/-- Poses of one joint on the same axis: relative motion between two joint values depends only on their difference. -/
theorem C21_relative_rot (j : Joint) (h : j.Valid) (ht : j.type ∈ [JointType.RotAxis, .RotX, .RotY, .RotZ])
    (a b : ℝ) : (j.pose a).inv * j.pose b = Frame.ofRot (Rot.rot2 j.jointAxis (j.scale * (b - a))) := by
  have hax : j.jointAxis.dot j.jointAxis = 1 := by
    simp only [List.mem_cons, List.not_mem_nil, or_false] at ht
    rcases ht with h' | h' | h' | h'
    · simp only [Joint.jointAxis, h']; exact h (.inl h')
    all_goals simp [Joint.jointAxis, h', Vec.dot]
  have hM : ∀ q, (j.pose q).M = Rot.rot2 j.jointAxis (j.scale * q + j.offset) := by
    intro q
    simp only [List.mem_cons, List.not_mem_nil, or_false] at ht
    rcases ht with h' | h' | h' | h' <;>
      simp [Joint.pose, Joint.jointAxis, h', Frame.ofRot, Rot.rotX_eq, Rot.rotY_eq, Rot.rotZ_eq]
  have hp : ∀ q, (j.pose q).p = (j.pose a).p := by
    intro q
    simp only [List.mem_cons, List.not_mem_nil, or_false] at ht
    rcases ht with h' | h' | h' | h' <;> simp [Joint.pose, h', Frame.ofRot]
  have e : Rot.rot2 j.jointAxis (j.scale * b + j.offset) =
      Rot.rot2 j.jointAxis (j.scale * a + j.offset) * Rot.rot2 j.jointAxis (j.scale * (b - a)) := by
    rw [Rot.rot2_mul _ hax]; congr 1; ring
  have hi := (Rot.isProper_rot2 j.jointAxis hax (j.scale * a + j.offset)).inv_mul_self
  ext1
  · simp only [Frame.mul_M, Frame.inv_M, hM, e, ← mul_assoc, hi, one_mul, Frame.ofRot]
  · simp only [Frame.mul_p, Frame.inv_M, Frame.inv_p, hp b, Frame.ofRot]; abel
/-- A fixed joint never moves. -/
theorem C21_fixed (j : Joint) (h : j.type = .Fixed) (q qd : ℝ) : j.pose q = 1 ∧ j.twist qd = 0 := by
  simp [Joint.pose, Joint.twist, h]

/-- Non-vacuity: a screw-free revolute joint about the diagonal, away from the origin. -/
example : ∃ j : Joint, j.Valid ∧ j.type = .RotAxis ∧ j.origin ≠ 0 ∧ (j.pose 1).p = j.origin := by
  refine ⟨⟨"j", .RotAxis, 1, 0, 0, 0, 0, ⟨3 / 5, 4 / 5, 0⟩, ⟨1, 2, 3⟩⟩, ?_, rfl, ?_, rfl⟩
  · intro _; simp [Vec.dot]; norm_num
  · intro h; have := congrArg Vec.x h; simp at this

/-! ## C22 -/

/-- The simple constructor throws exactly for the two arbitrary-axis types. -/
theorem C22_simple (n : String) (t : JointType) (a b c d e : ℝ) :
    (Joint.mk' n t a b c d e = .jointTypeEx ↔ t = .RotAxis ∨ t = .TransAxis) ∧
    (∀ j, Joint.mk' n t a b c d e = .ok j → j.Valid ∧ j.type = t ∧ j.scale = a ∧ j.offset = b ∧ j.inertia = c ∧
      j.damping = d ∧ j.stiffness = e) := by
  unfold Joint.mk'
  split_ifs with h
  · simp [h]
  · refine ⟨by simp [h], ?_⟩
    rintro j ⟨⟩
    exact ⟨fun h' => absurd h' h, rfl, rfl, rfl, rfl, rfl, rfl⟩
/-- The axis constructor throws exactly for the other types. -/
theorem C22_axis_throws (n : String) (o u : Vec) (t : JointType) (a b c d e : ℝ) :
    Joint.mkAxis n o u t a b c d e = .jointTypeEx ↔ ¬ (t = .RotAxis ∨ t = .TransAxis) := by
  unfold Joint.mkAxis
  split_ifs with h h' <;> simp_all
/-- For an axis that is not rounded to zero length the constructed joint has the unit axis in the given direction. -/
theorem C22_axis_ok_partial (n : String) (o u : Vec) (t : JointType) (a b c d e : ℝ)
    (ht : t = .RotAxis ∨ t = .TransAxis) (hu : u.norm ≠ 0) :
    ∃ j, Joint.mkAxis n o u t a b c d e = .ok j ∧ j.Valid ∧ j.axis.dot j.axis = 1 ∧ u.len • j.axis = u ∧
      j.origin = o ∧ j.type = t ∧ j.scale = a ∧ j.offset = b ∧ j.inertia = c ∧ j.damping = d ∧ j.stiffness = e := by
  have hl : u.norm = u.len := by
    have hh := Vec.norm_eq u epsilon epsilon_pos
    split_ifs at hh with hc
    · exact absurd hh hu
    · exact hh
  have hl0 : u.len ≠ 0 := hl ▸ hu
  have hunit : (u / u.norm).dot (u / u.norm) = 1 := by
    have h2 := Vec.len_sq u
    rw [hl, Vec.div_eq_smul, Vec.smul_dot, Vec.dot_smul, ← h2]; field_simp
  refine ⟨_, by unfold Joint.mkAxis; rw [if_neg (by tauto), if_neg hu], fun _ => hunit, hunit, ?_, rfl, rfl, rfl, rfl,
    rfl, rfl, rfl⟩
  show u.len • (u / u.norm) = u
  rw [hl, Vec.div_eq_smul, smul_smul, mul_inv_cancel₀ hl0, one_smul]
/-- **Violation** (full statement: every nonzero axis gives a unit axis): a nonzero axis along X shorter than 1e-6 is
divided by zero, while the same length along Y is accepted. -/
theorem C22_axis_violated :
    ∃ u v : Vec, u ≠ 0 ∧ u.len = v.len ∧
      Joint.mkAxis "j" 0 u .RotAxis 1 0 0 0 0 = .nan ∧ ∃ j, Joint.mkAxis "j" 0 v .RotAxis 1 0 0 0 0 = .ok j := by
  have hnx : (⟨1 / 10000000, 0, 0⟩ : Vec).norm = 0 := by
    rw [Vec.norm_eq _ _ epsilon_pos, if_pos]
    simp only [epsilon, abs_zero]
    norm_num [abs_of_pos]
  have hny : (⟨0, 1 / 10000000, 0⟩ : Vec).norm ≠ 0 := by
    rw [Vec.norm_eq _ _ epsilon_pos, if_neg]
    · simp [Vec.len]
    · simp only [abs_zero]
      norm_num [abs_of_pos]
  refine ⟨⟨1 / 10000000, 0, 0⟩, ⟨0, 1 / 10000000, 0⟩, ?_, ?_, ?_, ?_⟩
  · intro h; have := congrArg Vec.x h; norm_num at this
  · simp [Vec.len]
  · unfold Joint.mkAxis; rw [if_neg (by simp), if_pos hnx]
  · exact ⟨_, by unfold Joint.mkAxis; rw [if_neg (by simp), if_neg hny]⟩

/-! ## C23 -/

/-- The pose at joint value zero is the tip frame given by the user. -/
theorem C23_pose_zero (n : String) (j : Joint) (h : j.Valid) (f : Frame) (I : RBI) :
    (Segment.mk' n j f I).pose 0 = f := by
  have hp := Joint.isProper_pose h 0
  ext1
  · show (j.pose 0).M * ((j.pose 0).M.inv * f.M) = f.M
    rw [← mul_assoc, hp.orth, one_mul]
  · show (j.pose 0).M * ((j.pose 0).M.inv * f.p + -((j.pose 0).M.inv * (j.pose 0).p)) + (j.pose 0).p = f.p
    rw [Rot.app_add, Rot.app_neg, hp.app_inv_app, hp.app_inv_app]; abel
theorem C23_pose (n : String) (j : Joint) (f : Frame) (I : RBI) (q : ℝ) :
    (Segment.mk' n j f I).pose q = j.pose q * ((j.pose 0).inv * f) := rfl
/-- Construction from valid parts gives a valid segment. -/
theorem C23_valid (n : String) (j : Joint) (h : j.Valid) (f : Frame) (hf : f.IsProper) (I : RBI) :
    (Segment.mk' n j f I).Valid := ⟨h, Frame.IsProper.mul (Joint.isProper_pose h 0).inv hf⟩
/-- The segment twist is the velocity of the tip. -/
theorem C23_twist (s : Segment) (h : s.joint.Valid) (q : ℝ → ℝ) (q' τ : ℝ) (hq : HasDerivAt q q' τ) :
    Frame.HasTwist (fun r => s.pose (q r)) (s.twist (q τ) q') τ := Segment.hasTwist h hq
theorem C23_twist_linear (s : Segment) (q a b : ℝ) : s.twist q (a + b) = s.twist q a + s.twist q b := by
  rw [s.twist_eq_smul q (a + b), s.twist_eq_smul q a, s.twist_eq_smul q b, add_smul]
theorem C23_set_get (s : Segment) (h : s.joint.Valid) (f : Frame) : (s.setFrameToTip f).getFrameToTip = f :=
  C23_pose_zero s.name s.joint h f s.I
theorem C23_get_set (s : Segment) (h : s.joint.Valid) : s.setFrameToTip s.getFrameToTip = s := by
  have hp := Joint.isProper_pose h 0
  have e : (s.joint.pose 0).inv * (s.joint.pose 0 * s.f_tip) = s.f_tip := by
    ext1
    · show (s.joint.pose 0).M.inv * ((s.joint.pose 0).M * s.f_tip.M) = s.f_tip.M
      rw [← mul_assoc, hp.inv_mul_self, one_mul]
    · show (s.joint.pose 0).M.inv * ((s.joint.pose 0).M * s.f_tip.p + (s.joint.pose 0).p)
        + -((s.joint.pose 0).M.inv * (s.joint.pose 0).p) = s.f_tip.p
      rw [Rot.app_add, hp.inv_app_app]; abel
  unfold Segment.setFrameToTip Segment.getFrameToTip
  rw [e]

/-- Non-vacuity: a link of length one on a Z joint with nonzero offset still has the given tip at joint value zero,
and moves. -/
example : (Segment.mk' "s" ⟨"j", .RotZ, 1, π / 2, 0, 0, 0, 0, 0⟩ (Frame.ofVec ⟨1, 0, 0⟩) RBI.zero).pose 0
    = Frame.ofVec ⟨1, 0, 0⟩ := C23_pose_zero _ _ (by intro h; simp at h) _ _

end KDL
