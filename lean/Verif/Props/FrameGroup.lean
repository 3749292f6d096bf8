import Verif.Lemmas.Rotations

/-! C01, C03, C04, C05, C11, C12: rotations, frames, twists and wrenches. -/

namespace KDL

/-! ## C01 Rotation group -/

theorem C01_rotation_assoc (a b c : Rot) : (a * b) * c = a * (b * c) := mul_assoc a b c
theorem C01_rotation_identity (a : Rot) : 1 * a = a ∧ a * 1 = a := ⟨one_mul a, mul_one a⟩
theorem C01_rotation_action (a b : Rot) (v : Vec) : (a * b) * v = a * (b * v) ∧ (1 : Rot) * v = v :=
  ⟨Rot.mul_app a b v, Rot.one_app v⟩
theorem C01_inverse_two_sided (R : Rot) (h : R.IsProper) : R * R.inv = 1 ∧ R.inv * R = 1 :=
  ⟨h.orth, h.inv_mul_self⟩
theorem C01_closed (R S : Rot) (h : R.IsProper) (k : S.IsProper) :
    (R * S).IsProper ∧ R.inv.IsProper ∧ (1 : Rot).IsProper := ⟨h.mul k, h.inv, Rot.IsProper.one⟩
/-- The inverse overloads on vectors, twists and wrenches agree with multiplying by the inverse. -/
theorem C01_inverse_overloads (R : Rot) (v : Vec) (t : Twist) (w : Wrench) :
    R.invVec v = R.inv * v ∧ R.invTwist t = R.inv * t ∧ R.invWrench w = R.inv * w :=
  ⟨rfl, rfl, rfl⟩
theorem C01_set_inverse_involutive (R : Rot) : R.inv.inv = R := rfl
theorem C01_inverse_undoes (R : Rot) (h : R.IsProper) (v : Vec) :
    R.invVec (R * v) = v ∧ R * (R.invVec v) = v := ⟨h.inv_app_app v, h.app_inv_app v⟩
theorem C01_preserves_dot (R : Rot) (h : R.IsProper) (a b : Vec) : (R * a).dot (R * b) = a.dot b :=
  h.dot a b
theorem C01_preserves_cross (R : Rot) (h : R.IsProper) (a b : Vec) :
    (R * a) * (R * b) = R * (a * b) := h.cross a b
theorem C01_linear (R : Rot) (c : ℝ) (a b : Vec) :
    R * (a + b) = R * a + R * b ∧ R * (c • a) = c • (R * a) ∧ R * (-a) = -(R * a) :=
  ⟨Rot.app_add R a b, Rot.app_smul R c a, Rot.app_neg R a⟩
/-- The columns reported by `UnitX/Y/Z` are the images of the base vectors, and the column constructor inverts them. -/
theorem C01_columns (R : Rot) :
    R * (⟨1, 0, 0⟩ : Vec) = R.unitX ∧ R * (⟨0, 1, 0⟩ : Vec) = R.unitY ∧
    R * (⟨0, 0, 1⟩ : Vec) = R.unitZ ∧ Rot.ofCols R.unitX R.unitY R.unitZ = R := by
  refine ⟨?_, ?_, ?_, rfl⟩ <;> ext <;> simp [Rot.unitX, Rot.unitY, Rot.unitZ]

-- non-vacuity: a proper rotation different from the identity, and a matrix that is not proper
example : (⟨0, -1, 0, 1, 0, 0, 0, 0, 1⟩ : Rot).IsProper ∧ (⟨0, -1, 0, 1, 0, 0, 0, 0, 1⟩ : Rot) ≠ 1 := by
  refine ⟨⟨?_, ?_⟩, ?_⟩
  · ext <;> simp
  · simp [Rot.det]
  · intro h; have := congrArg Rot.m00 h; simp at this
example : ¬ (⟨-1, 0, 0, 0, 1, 0, 0, 0, 1⟩ : Rot).IsProper := by
  rintro ⟨_, h⟩; norm_num [Rot.det] at h

/-! ## C03 Frame group -/

theorem C03_frame_assoc (a b c : Frame) : (a * b) * c = a * (b * c) := mul_assoc a b c
theorem C03_frame_identity (a : Frame) : 1 * a = a ∧ a * 1 = a := ⟨one_mul a, mul_one a⟩
theorem C03_frame_action (a b : Frame) (v : Vec) :
    (a * b) * v = a * (b * v) ∧ (1 : Frame) * v = v := by
  constructor
  · simp [Frame.app_vec, Rot.mul_app, Rot.app_add, add_assoc]
  · simp [Frame.app_vec]
theorem C03_inverse_two_sided (F : Frame) (h : F.IsProper) : F * F.inv = 1 ∧ F.inv * F = 1 := by
  have h' : F.M.IsProper := h
  refine ⟨?_, ?_⟩ <;> ext1
  · exact h'.orth
  · simp [h'.app_inv_app]
  · exact h'.inv_mul_self
  · simp
theorem C03_inverse_point (F : Frame) (v : Vec) : F.invVec v = F.inv * v := by
  simp only [Frame.invVec, Rot.invVec_eq, Frame.app_vec, Rot.app_sub, Frame.inv_M, Frame.inv_p]
  abel
theorem C03_inverse_undoes (F : Frame) (h : F.IsProper) (v : Vec) :
    F.invVec (F * v) = v ∧ F * (F.invVec v) = v := by
  have h' : F.M.IsProper := h
  simp [Frame.invVec, Rot.invVec_eq, Frame.app_vec, h'.inv_app_app, h'.app_inv_app]
theorem C03_inverse_of_product (F G : Frame) (hG : G.IsProper) (hF : F.IsProper) :
    (F * G).inv = G.inv * F.inv := by
  have h1 := (C03_inverse_two_sided (F * G) (Frame.IsProper.mul hF hG)).2
  have hF1 := (C03_inverse_two_sided F hF).1
  have hG1 := (C03_inverse_two_sided G hG).1
  calc (F * G).inv = (F * G).inv * ((F * G) * (G.inv * F.inv)) := by
        rw [show (F * G) * (G.inv * F.inv) = 1 by
          rw [mul_assoc, ← mul_assoc G, hG1, one_mul, hF1], mul_one]
    _ = G.inv * F.inv := by rw [← mul_assoc, h1, one_mul]
theorem C03_closed (F G : Frame) (hF : F.IsProper) (hG : G.IsProper) :
    (F * G).IsProper ∧ F.inv.IsProper := ⟨Frame.IsProper.mul hF hG, Frame.IsProper.inv hF⟩
/-- `Make4x4` / `operator()(i,j)` is a homomorphism into 4×4 matrices. -/
theorem C03_homogeneous_matrix (F G : Frame) (i j : Fin 4) :
    (F * G).entry i j = F.entry i 0 * G.entry 0 j + F.entry i 1 * G.entry 1 j
      + F.entry i 2 * G.entry 2 j + F.entry i 3 * G.entry 3 j := by
  fin_cases i <;> fin_cases j <;> simp [Frame.entry]
/-- Splitting a frame into translation then rotation. -/
theorem C03_translation_rotation (F : Frame) : Frame.ofVec F.p * Frame.ofRot F.M = F := by
  ext1 <;> simp [Frame.ofVec, Frame.ofRot]
/-- Integrating the zero twist leaves the frame unchanged. -/
theorem C03_integrate_zero (F : Frame) (freq : ℝ) : F.integrate 0 freq = F := by
  have hn : (0 : Vec).norm = 0 := by simp [Vec.norm, epsilon]
  have he : (0 : ℝ) < epsilon := by norm_num [epsilon]
  simp only [Frame.integrate, Twist.zero_rot, hn, zero_div, if_pos he, Twist.zero_vel]
  ext1
  · rfl
  · ext <;> simp

example : (⟨⟨0, -1, 0, 1, 0, 0, 0, 0, 1⟩, ⟨1, 2, 3⟩⟩ : Frame).IsProper := by
  refine ⟨?_, ?_⟩
  · ext <;> simp
  · simp [Rot.det]

/-! ## C04 twists and wrenches -/

theorem C04_twist_action (F G : Frame) (t : Twist) (hF : F.IsProper) :
    (F * G) * t = F * (G * t) ∧ (1 : Frame) * t = t := by
  have h : F.M.IsProper := hF
  refine ⟨?_, ?_⟩
  · ext1
    · simp [Rot.mul_app, Rot.app_add, Vec.add_cross, ← h.cross, add_assoc]
    · simp [Rot.mul_app]
  · ext1 <;> simp
theorem C04_wrench_action (F G : Frame) (w : Wrench) (hF : F.IsProper) :
    (F * G) * w = F * (G * w) ∧ (1 : Frame) * w = w := by
  have h : F.M.IsProper := hF
  refine ⟨?_, ?_⟩
  · ext1
    · simp [Rot.mul_app]
    · simp [Rot.mul_app, Rot.app_add, Vec.add_cross, ← h.cross, add_assoc]
  · ext1 <;> simp
theorem C04_inverse_overloads (F : Frame) (t : Twist) (w : Wrench) (h : F.IsProper) :
    F.invTwist t = F.inv * t ∧ F.invWrench w = F.inv * w := by
  have h' : F.M.inv.IsProper := Rot.IsProper.inv h
  refine ⟨?_, ?_⟩ <;> ext1 <;>
    simp [Frame.invTwist, Frame.invWrench, Rot.invVec_eq, Rot.app_sub, h'.cross] <;> abel
theorem C04_inverse_undoes (F : Frame) (t : Twist) (w : Wrench) (h : F.IsProper) :
    F.invTwist (F * t) = t ∧ F * F.invTwist t = t ∧ F.invWrench (F * w) = w ∧ F * F.invWrench w = w := by
  have h' : F.M.IsProper := h
  refine ⟨?_, ?_, ?_, ?_⟩ <;> ext1 <;>
    simp [Frame.invTwist, Frame.invWrench, Rot.invVec_eq, h'.inv_app_app, h'.app_inv_app]
theorem C04_linear (F : Frame) (c : ℝ) (a b : Twist) (u v : Wrench) :
    F * (a + b) = F * a + F * b ∧ F * (c • a) = c • (F * a) ∧
    F * (u + v) = F * u + F * v ∧ F * (c • u) = c • (F * u) := by
  refine ⟨?_, ?_, ?_, ?_⟩ <;> ext1 <;>
    simp [Rot.app_add, Rot.app_smul, Vec.cross_add, Vec.cross_smul] <;> abel
theorem C04_refpoint_additive (t : Twist) (w : Wrench) (a b : Vec) :
    (t.refPoint a).refPoint b = t.refPoint (a + b) ∧ t.refPoint 0 = t ∧
    (w.refPoint a).refPoint b = w.refPoint (a + b) ∧ w.refPoint 0 = w := by
  refine ⟨?_, ?_, ?_, ?_⟩ <;> ext1 <;> simp [Vec.cross_add, add_assoc]
/-- Transforming by a frame is a change of base followed by a change of reference point by minus the origin. -/
theorem C04_frame_is_rotation_then_refpoint (F : Frame) (t : Twist) (w : Wrench) :
    F * t = (F.M * t).refPoint (-F.p) ∧ F * w = (F.M * w).refPoint (-F.p) := by
  refine ⟨?_, ?_⟩ <;> ext1 <;> simp [← Vec.cross_comm]
theorem C04_power_frame (F : Frame) (h : F.IsProper) (t : Twist) (w : Wrench) :
    (F * t).dot (F * w) = t.dot w := by
  have h' : F.M.IsProper := h
  simp only [Twist.dot, Frame.app_twist_vel, Frame.app_twist_rot, Frame.app_wrench_force,
    Frame.app_wrench_torque, Vec.add_dot, Vec.dot_add, h'.dot]
  rw [Vec.dot_cross (F.M * t.rot), Vec.dot_comm (F.p * _), Vec.dot_cross (F.M * w.force)]
  rw [Vec.cross_comm (F.M * t.rot)]
  simp only [Vec.dot_neg]
  ring
theorem C04_power_inverse_frame (F : Frame) (h : F.IsProper) (t : Twist) (w : Wrench) :
    (F.invTwist t).dot (F.invWrench w) = t.dot w := by
  rw [(C04_inverse_overloads F t w h).1, (C04_inverse_overloads F t w h).2]
  exact C04_power_frame _ (Frame.IsProper.inv h) t w
theorem C04_power_rotation (R : Rot) (h : R.IsProper) (t : Twist) (w : Wrench) :
    (R * t).dot (R * w) = t.dot w := by simp [Twist.dot, h.dot]
theorem C04_power_refpoint (t : Twist) (w : Wrench) (v : Vec) :
    (t.refPoint v).dot (w.refPoint v) = t.dot w := by
  simp only [Twist.dot, Vec.dot, Twist.refPoint, Wrench.refPoint, Vec.add_x, Vec.add_y, Vec.add_z,
    Vec.mul_x, Vec.mul_y, Vec.mul_z]
  ring

example : ((⟨1, ⟨0, 0, 1⟩⟩ : Frame) * (⟨0, ⟨1, 0, 0⟩⟩ : Twist)).vel = ⟨0, 1, 0⟩ := by
  ext <;> simp

/-! ## C05 spatial cross products -/

theorem C05_antisymmetric (a b : Twist) : a * b = -(b * a) ∧ a * a = 0 := by
  refine ⟨?_, ?_⟩ <;> ext1
  · simp only [Twist.mul_vel, Twist.neg_vel]
    rw [Vec.cross_comm a.rot, Vec.cross_comm a.vel]; abel
  · exact Vec.cross_comm _ _
  · simp only [Twist.mul_vel, Twist.zero_vel]
    rw [Vec.cross_comm a.rot]; abel
  · simp
theorem C05_jacobi (a b c : Twist) : a * (b * c) = (a * b) * c + b * (a * c) := by
  ext1
  · simp only [Twist.mul_vel, Twist.mul_rot, Twist.add_vel]
    ext <;> simp <;> ring
  · simp only [Twist.mul_rot, Twist.add_rot]
    exact Vec.jacobi _ _ _
/-- The wrench product is a representation of the twist bracket. -/
theorem C05_jacobi_wrench (a b : Twist) (w : Wrench) :
    a * (b * w) = (a * b) * w + b * (a * w) := by
  ext1
  · simp only [Twist.mulW_force, Twist.mul_rot, Wrench.add_force]
    exact Vec.jacobi _ _ _
  · simp only [Twist.mulW_torque, Twist.mulW_force, Twist.mul_rot, Twist.mul_vel, Wrench.add_torque]
    ext <;> simp <;> ring
theorem C05_duality (a b : Twist) (w : Wrench) : (a * b).dot w = -(b.dot (a * w)) := by
  simp [Twist.dot, Vec.dot]; ring
theorem C05_equivariant (F : Frame) (h : F.IsProper) (a b : Twist) (w : Wrench) :
    F * (a * b) = (F * a) * (F * b) ∧ F * (a * w) = (F * a) * (F * w) := by
  have h' : F.M.IsProper := h
  refine ⟨?_, ?_⟩ <;> ext1
  · simp only [Frame.app_twist_vel, Twist.mul_vel, Twist.mul_rot, Frame.app_twist_rot, Rot.app_add,
      ← h'.cross, Vec.cross_add, Vec.add_cross]
    rw [Vec.jacobi F.p]
    abel
  · simp [h'.cross]
  · simp [h'.cross]
  · simp only [Frame.app_wrench_torque, Frame.app_twist_vel, Frame.app_twist_rot,
      Frame.app_wrench_force, Twist.mulW_torque, Twist.mulW_force, Rot.app_add,
      ← h'.cross, Vec.cross_add, Vec.add_cross]
    rw [Vec.jacobi F.p]
    abel

example : ((⟨0, ⟨0, 0, 1⟩⟩ : Twist) * (⟨⟨1, 0, 0⟩, 0⟩ : Twist)).vel = ⟨0, 1, 0⟩ := by
  ext <;> simp

/-! ## C11 Denavit-Hartenberg -/

theorem C11_dh (a alpha d theta : ℝ) :
    Frame.dh a alpha d theta =
      Frame.ofRot (Rot.rotZ theta) * Frame.ofVec ⟨0, 0, d⟩ * Frame.ofVec ⟨a, 0, 0⟩
        * Frame.ofRot (Rot.rotX alpha) := by
  ext <;> simp [Frame.dh, Frame.ofRot, Frame.ofVec, Rot.rotZ, Rot.rotX] <;> ring
theorem C11_dh_craig (a alpha d theta : ℝ) :
    Frame.dhCraig a alpha d theta =
      Frame.ofRot (Rot.rotX alpha) * Frame.ofVec ⟨a, 0, 0⟩ * Frame.ofRot (Rot.rotZ theta)
        * Frame.ofVec ⟨0, 0, d⟩ := by
  ext <;> simp [Frame.dhCraig, Frame.ofRot, Frame.ofVec, Rot.rotZ, Rot.rotX] <;> ring
theorem C11_proper (a alpha d theta : ℝ) :
    (Frame.dh a alpha d theta).IsProper ∧ (Frame.dhCraig a alpha d theta).IsProper := by
  have hx := Rot.isProper_rotX alpha
  have hz := Rot.isProper_rotZ theta
  have ht : ∀ v, (Frame.ofVec v).IsProper := fun v => Rot.IsProper.one
  rw [C11_dh, C11_dh_craig]
  exact ⟨((Frame.IsProper.mul (Frame.IsProper.mul (Frame.IsProper.mul hz (ht _)) (ht _)) hx)),
    (Frame.IsProper.mul (Frame.IsProper.mul (Frame.IsProper.mul hx (ht _)) hz) (ht _))⟩

example : (Frame.dh 1 0 2 0).p = ⟨1, 0, 2⟩ := by ext <;> simp [Frame.dh]

/-! ## C12 in-place rotations -/

theorem C12_doRotX (R : Rot) (a : ℝ) : R.doRotX a = R * Rot.rotX a := by
  ext <;> simp [Rot.doRotX, Rot.rotX] <;> ring
theorem C12_doRotY (R : Rot) (a : ℝ) : R.doRotY a = R * Rot.rotY a := by
  ext <;> simp [Rot.doRotY, Rot.rotY] <;> ring
theorem C12_doRotZ (R : Rot) (a : ℝ) : R.doRotZ a = R * Rot.rotZ a := by
  ext <;> simp [Rot.doRotZ, Rot.rotZ] <;> ring

example : (1 : Rot).doRotZ Real.pi ≠ 1 := by
  intro h; have := congrArg Rot.m00 h; norm_num [Rot.doRotZ] at this

end KDL
