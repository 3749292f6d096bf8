import Verif.Lemmas.Inertia
import Verif.Lemmas.TreeKin
import Verif.Props.FrameGroup

/-! C37: rigid body inertias; C38: articulated body inertias. -/

noncomputable section
namespace KDL

/-- Specification: the momentum, about the reference point, of a body with mass `m`, centre of gravity `c` and central
inertia `Ic` that moves with twist `t` (velocity of the reference point and angular velocity): linear momentum is mass
times velocity of the centre of gravity, angular momentum is the central one plus the moment of the linear momentum. -/
def momentumSpec (m : ℝ) (c : Vec) (Ic : Mat3) (t : Twist) : Wrench :=
  let vc : Vec := t.vel + t.rot * c
  ⟨m • vc, Ic * t.rot + c * (m • vc)⟩

/-- An inertia built from mass, centre of gravity and central inertia maps a twist to the body's momentum, for every
sign of `m` and every matrix `Ic`. -/
theorem C37_momentum (m : ℝ) (c : Vec) (Ic : Mat3) (t : Twist) : RBI.ofCog m c Ic * t = momentumSpec m c Ic t := by
  rw [RBI.mul_twist]
  simp only [RBI.ofCog, momentumSpec, Mat3.sub_app, Mat3.smul_app, Mat3.one_app, Mat3.outer_app]
  ext <;> simp [Vec.dot] <;> ring

/-- The accessors give back what the constructor was given. -/
theorem C37_cog (m : ℝ) (c : Vec) (Ic : Mat3) :
    (RBI.ofCog m c Ic).m = m ∧ (m ≠ 0 → (RBI.ofCog m c Ic).getCOG = c) ∧
    (RBI.ofCog 0 c Ic).getCOG = 0 := by
  refine ⟨rfl, fun h => ?_, ?_⟩
  · have hm : (RBI.ofCog m c Ic).m ≠ 0 := h
    unfold RBI.getCOG; rw [if_neg hm]; simp only [RBI.ofCog]; ext <;> simp <;> field_simp
  · simp [RBI.getCOG, RBI.ofCog]

/-- Momentum is additive in the inertia and linear in the twist: rigidly joined bodies. -/
theorem C37_linear (a b : RBI) (k : ℝ) (s t : Twist) :
    (a + b) * t = a * t + b * t ∧ (k • a) * t = k • (a * t) ∧ a * (s + t) = a * s + a * t ∧
    a * (k • t) = k • (a * t) ∧ RBI.zero * t = 0 := by
  refine ⟨?_, ?_, ?_, ?_, ?_⟩
  · rw [RBI.add_def]; simp only [RBI.mul_twist, Mat3.add_app]; ext <;> simp <;> ring
  · rw [RBI.smul_def]; simp only [RBI.mul_twist, Mat3.smul_app]; ext <;> simp <;> ring
  · simp only [RBI.mul_twist]; ext <;> simp <;> ring
  · simp only [RBI.mul_twist]; ext <;> simp <;> ring
  · simp only [RBI.mul_twist]; ext <;> simp [RBI.zero, RBI.ofCog, rotationalInertia, Mat3.sub_def, Mat3.smul_def]

/-- Changing the reference point of the inertia is changing the reference point of the momentum it produces.
(`Twist::RefPoint(p)` gives the velocity of the point `p` of the body.) -/
theorem C37_refPoint (i : RBI) (p : Vec) (t : Twist) : i.refPoint p * t.refPoint p = (i * t).refPoint p := by
  rw [RBI.mul_twist, RBI.refPoint_I_app]
  simp only [RBI.mul_twist, RBI.refPoint]
  ext <;> simp [Twist.refPoint, Wrench.refPoint] <;> ring

/-- Rotating the inertia is rotating the momentum. -/
theorem C37_rotation (R : Rot) (hR : R.IsProper) (i : RBI) (t : Twist) : (R * i) * (R * t) = R * (i * t) := by
  rw [RBI.mul_twist, RBI.rot_I_app]
  change Wrench.mk (i.m • (R * t.vel) - (R * i.h) * (R * t.rot)) (R * (i.I * (R.inv * (R * t.rot))) + (R * i.h) * (R * t.vel)) = _
  rw [hR.cross, hR.cross, hR.inv_app_app, ← Rot.app_smul, ← Rot.app_sub, ← Rot.app_add]
  rfl

/-- Transforming the inertia by a frame is transforming the momentum. -/
theorem C37_frame (T : Frame) (hT : T.IsProper) (i : RBI) (t : Twist) : (T * i) * (T * t) = T * (i * t) := by
  rw [RBI.frame_eq, Frame.app_twist_eq T hT, C37_rotation _ hT, C37_refPoint, ← Frame.app_wrench_eq T hT]

/-- Frames act on inertias as they act on twists and wrenches: a composition acts as the composition of the actions, the
identity does nothing, and the inverse frame undoes the change. -/
theorem C37_action (S T : Frame) (hS : S.IsProper) (hT : T.IsProper) (i : RBI) :
    (S * T) * i = S * (T * i) ∧ (1 : Frame) * i = i ∧ T.inv * (T * i) = i ∧ T * (T.inv * i) = i := by
  have key : ∀ (S T : Frame), S.IsProper → T.IsProper → ∀ i : RBI, (S * T) * i = S * (T * i) := by
    intro S T hS hT i
    refine RBI.ext_app fun t => ?_
    have e := (C04_inverse_undoes (S * T) t 0 (hS.mul hT)).2.1
    rw [← e]
    generalize (S * T).invTwist t = u
    rw [C37_frame _ (hS.mul hT), (C04_wrench_action _ _ _ hS).1, (C04_twist_action _ _ _ hS).1, C37_frame _ hS, C37_frame _ hT]
  have k1 : (1 : Frame) * i = i := by
    refine RBI.ext_app fun t => ?_
    have e : (1 : Frame) * t = t := by ext <;> simp
    have e' : ∀ w : Wrench, (1 : Frame) * w = w := fun w => by ext <;> simp
    rw [← e, C37_frame _ Frame.IsProper.one, e', e]
  refine ⟨key S T hS hT i, k1, ?_, ?_⟩
  · rw [← key _ _ hT.inv hT, Frame.inv_mul_self hT, k1]
  · rw [← key _ _ hT hT.inv, Frame.mul_inv_self hT, k1]

/-- The parallel-axis rule: the transformed body has its centre of gravity at the transformed point, and its central
inertia is only rotated. -/
theorem C37_parallel_axis (T : Frame) (hT : T.IsProper) (p : Vec) (m : ℝ) (c : Vec) (Ic : Mat3) :
    (RBI.ofCog m c Ic).refPoint p = RBI.ofCog m (c - p) Ic ∧
    T * RBI.ofCog m c Ic = RBI.ofCog m (T * c) ((Mat3.mapRot T.M).tr * (Ic * Mat3.mapRot T.M)) := by
  have h1 : ∀ p, (RBI.ofCog m c Ic).refPoint p = RBI.ofCog m (c - p) Ic := by
    intro p
    refine RBI.ext_app fun t => ?_
    have e : t = (t.refPoint (-p)).refPoint p := by ext <;> simp [Twist.refPoint]
    rw [e, C37_refPoint, C37_momentum, C37_momentum]
    ext <;> simp [momentumSpec, Twist.refPoint, Wrench.refPoint] <;> ring
  refine ⟨h1 p, ?_⟩
  rw [RBI.frame_eq, h1]
  refine RBI.ext_app fun t => ?_
  have e : t = T.M * (T.M.inv * t) := by
    change _ = Twist.mk (T.M * (T.M.inv * t.vel)) (T.M * (T.M.inv * t.rot))
    rw [Rot.IsProper.app_inv_app hT, Rot.IsProper.app_inv_app hT]
  rw [e]
  generalize T.M.inv * t = u
  rw [C37_rotation _ hT, C37_momentum, C37_momentum]
  have hc : T.M * (c - T.inv.p) = T * c := by
    change T.M * (c - -(T.M.inv * T.p)) = T.M * c + T.p
    rw [Rot.app_sub, Rot.app_neg, Rot.IsProper.app_inv_app hT]; abel
  rw [← hc]
  generalize c - T.inv.p = d
  simp only [momentumSpec]
  change Wrench.mk (T.M * (m • (u.vel + u.rot * d))) (T.M * (Ic * u.rot + d * (m • (u.vel + u.rot * d)))) =
    Wrench.mk (m • (T.M * u.vel + (T.M * u.rot) * (T.M * d))) (((Mat3.mapRot T.M).tr * (Ic * Mat3.mapRot T.M)) * (T.M * u.rot) +
      (T.M * d) * (m • (T.M * u.vel + (T.M * u.rot) * (T.M * d))))
  rw [Rot.IsProper.cross hT, ← Rot.app_add, ← Rot.app_smul, Rot.IsProper.cross hT, Mat3.mul_app, Mat3.mul_app, Mat3.mapRot_tr_app, Mat3.mapRot_app, Rot.IsProper.inv_app_app hT, ← Rot.app_add]

/-- Specification: positive semidefinite / definite central inertia. -/
def Mat3.PSD (A : Mat3) : Prop := ∀ v : Vec, 0 ≤ Vec.dot v (A * v)

/-- Twice the kinetic energy `t · (I t)` does not depend on the frame the body is expressed in … -/
theorem C37_energy_frame (T : Frame) (hT : T.IsProper) (i : RBI) (t : Twist) :
    Twist.dot (T * t) ((T * i) * (T * t)) = Twist.dot t (i * t) := by
  rw [C37_frame T hT, C04_power_frame T hT]

/-- … it is the translational energy of the centre of gravity plus the rotational energy about it … -/
theorem C37_energy (m : ℝ) (c : Vec) (Ic : Mat3) (t : Twist) :
    Twist.dot t (RBI.ofCog m c Ic * t) =
      m * Vec.dot (t.vel + t.rot * c) (t.vel + t.rot * c) + Vec.dot t.rot (Ic * t.rot) := by
  rw [C37_momentum]
  simp [momentumSpec, Twist.dot, Vec.dot]; ring

/-- … hence it is never negative for a nonnegative mass and a positive semidefinite central inertia. -/
theorem C37_energy_nonneg (m : ℝ) (c : Vec) (Ic : Mat3) (hm : 0 ≤ m) (hI : Ic.PSD) (t : Twist) :
    0 ≤ Twist.dot t (RBI.ofCog m c Ic * t) := by
  rw [C37_energy]
  have h1 := hI t.rot
  have h2 : 0 ≤ Vec.dot (t.vel + t.rot * c) (t.vel + t.rot * c) := by
    simp only [Vec.dot]; nlinarith [mul_self_nonneg (t.vel + t.rot * c).x, mul_self_nonneg (t.vel + t.rot * c).y, mul_self_nonneg (t.vel + t.rot * c).z]
  nlinarith [mul_nonneg hm h2]

/-- A concrete body: mass 2 at (1,0,0), nonzero central inertia, spinning about z. -/
example : RBI.ofCog 2 ⟨1, 0, 0⟩ (rotationalInertia 1 2 3 0 0 0) * (⟨0, ⟨0, 0, 1⟩⟩ : Twist) = ⟨⟨0, 2, 0⟩, ⟨0, 0, 5⟩⟩ := by
  rw [C37_momentum]
  ext <;> simp [momentumSpec, rotationalInertia]; norm_num
example : (rotationalInertia 1 2 3 0 0 0).PSD := fun v => by
  simp only [rotationalInertia, Vec.dot, Mat3.app_x, Mat3.app_y, Mat3.app_z]
  nlinarith [mul_self_nonneg v.x, mul_self_nonneg v.y, mul_self_nonneg v.z]

/-! ## C38 articulated body inertias -/

theorem ABI.mul_twist (i : ABI) (t : Twist) : i * t = ⟨i.M * t.vel + i.H.tr * t.rot, i.I * t.rot + i.H * t.vel⟩ := rfl
theorem ABI.ext_app {a b : ABI} (h : ∀ t : Twist, a * t = b * t) : a = b := by
  have e : ∀ A : Mat3, A * (0 : Vec) = 0 := Mat3.app_zero
  refine ABI.ext (Mat3.ext_app fun v => ?_) (Mat3.ext_app fun v => ?_) (Mat3.ext_app fun v => ?_)
  · have := congrArg Wrench.force (h ⟨v, 0⟩); simpa [ABI.mul_twist, e] using this
  · have := congrArg Wrench.torque (h ⟨v, 0⟩); simpa [ABI.mul_twist, e] using this
  · have := congrArg Wrench.torque (h ⟨0, v⟩); simpa [ABI.mul_twist, e] using this
theorem ABI.add_def (a b : ABI) : a + b = ⟨a.M + b.M, a.H + b.H, a.I + b.I⟩ := rfl
theorem ABI.sub_def (a b : ABI) : a - b = ⟨a.M - b.M, a.H - b.H, a.I - b.I⟩ := rfl
theorem ABI.smul_def (k : ℝ) (a : ABI) : k • a = ⟨k • a.M, k • a.H, k • a.I⟩ := rfl

/-- Converting a rigid body inertia keeps the map from twists to wrenches. -/
theorem C38_ofRBI (i : RBI) (t : Twist) : ABI.ofRBI i * t = i * t := by
  rw [ABI.mul_twist, RBI.mul_twist]
  simp only [ABI.ofRBI, Mat3.smul_app, Mat3.one_app, Mat3.skew_app, Mat3.skew_tr_app]
  ext <;> simp <;> ring

/-- Linear in both arguments. -/
theorem C38_linear (a b : ABI) (k : ℝ) (s t : Twist) :
    (a + b) * t = a * t + b * t ∧ (a - b) * t = a * t - b * t ∧ (k • a) * t = k • (a * t) ∧
    a * (s + t) = a * s + a * t ∧ a * (k • t) = k • (a * t) := by
  refine ⟨?_, ?_, ?_, ?_, ?_⟩
  · rw [ABI.add_def]; simp only [ABI.mul_twist, Mat3.add_app, Mat3.tr_add]; ext <;> simp <;> ring
  · rw [ABI.sub_def]; simp only [ABI.mul_twist, Mat3.sub_app, Mat3.tr_sub]; ext <;> simp <;> ring
  · rw [ABI.smul_def]; simp only [ABI.mul_twist, Mat3.smul_app, Mat3.tr_smul]; ext <;> simp <;> ring
  · simp only [ABI.mul_twist]; ext <;> simp <;> ring
  · simp only [ABI.mul_twist]; ext <;> simp <;> ring

/-- A symmetric articulated body inertia: the symmetry every articulated inertia of a mechanism has.  (The off-diagonal
block is stored once, so only the diagonal blocks can be asymmetric.) -/
def ABI.Symm (i : ABI) : Prop := i.M.tr = i.M ∧ i.I.tr = i.I

theorem ABI.refPoint_app (i : ABI) (p : Vec) (t : Twist) (hM : i.M.tr = i.M) :
    i.refPoint p * t.refPoint p = (i * t).refPoint p := by
  simp only [ABI.mul_twist, ABI.refPoint, Mat3.tr_sub, Mat3.tr_mul, hM, Mat3.add_app, Mat3.sub_app, Mat3.mul_app,
    Mat3.skew_tr_app, Mat3.skew_app, Twist.refPoint, Wrench.refPoint, Mat3.app_add]
  have e1 : i.M * (p * t.rot) = -(i.M * (t.rot * p)) := by
    rw [← Mat3.app_neg]; congr 1; ext <;> simp <;> ring
  have e2 : i.H * (p * t.rot) = -(i.H * (t.rot * p)) := by
    rw [← Mat3.app_neg]; congr 1; ext <;> simp <;> ring
  congr 1
  · abel
  · rw [e1, e2]
    generalize i.M * (t.rot * p) = a
    generalize i.H * (t.rot * p) = b
    generalize i.M * t.vel = c
    generalize i.H.tr * t.rot = d
    ext <;> simp <;> ring

theorem ABI.rot_app (R : Rot) (hR : R.IsProper) (i : ABI) (t : Twist) : (R * i) * (R * t) = R * (i * t) := by
  change ABI.mk _ _ _ * Twist.mk _ _ = Wrench.mk _ _
  simp only [ABI.mul_twist, Mat3.tr_mul, Mat3.tr_tr, Mat3.mul_app, Mat3.mapRot_app, Mat3.mapRot_tr_app, hR.inv_app_app, Rot.app_add]

theorem ABI.frame_eq (T : Frame) (i : ABI) : T * i = T.M * (i.refPoint T.inv.p) := by
  change ABI.mk _ _ _ = ABI.mk _ _ _
  have : (Mat3.mapRot T.M.inv) = (Mat3.mapRot T.M).tr := rfl
  congr 1

/-- Change of reference point, rotation and frame transformation of a symmetric articulated inertia transform the wrench
it produces. -/
theorem C38_transform (i : ABI) (hi : i.Symm) (p : Vec) (R : Rot) (hR : R.IsProper) (T : Frame) (hT : T.IsProper)
    (t : Twist) :
    i.refPoint p * t.refPoint p = (i * t).refPoint p ∧ (R * i) * (R * t) = R * (i * t) ∧ (T * i) * (T * t) = T * (i * t) := by
  refine ⟨ABI.refPoint_app _ _ _ hi.1, ABI.rot_app _ hR _ _, ?_⟩
  rw [ABI.frame_eq, Frame.app_twist_eq T hT, ABI.rot_app _ hT, ABI.refPoint_app _ _ _ hi.1, ← Frame.app_wrench_eq T hT]

/-- The two classes have the same operations: conversion commutes with sums, scaling, change of reference point,
rotation and frame transformation. -/
theorem C38_ofRBI_ops (a b : RBI) (k : ℝ) (p : Vec) (R : Rot) (hR : R.IsProper) (T : Frame) (hT : T.IsProper) :
    ABI.ofRBI (a + b) = ABI.ofRBI a + ABI.ofRBI b ∧ ABI.ofRBI (k • a) = k • ABI.ofRBI a ∧
    ABI.ofRBI (a.refPoint p) = (ABI.ofRBI a).refPoint p ∧ ABI.ofRBI (R * a) = R * ABI.ofRBI a ∧
    ABI.ofRBI (T * a) = T * ABI.ofRBI a := by
  have hM : (ABI.ofRBI a).M.tr = (ABI.ofRBI a).M := rfl
  have k3 : ∀ p, ABI.ofRBI (a.refPoint p) = (ABI.ofRBI a).refPoint p := by
    intro p
    refine ABI.ext_app fun t => ?_
    have e : t = (t.refPoint (-p)).refPoint p := by ext <;> simp [Twist.refPoint]
    rw [e, C38_ofRBI, C37_refPoint, ABI.refPoint_app _ _ _ hM, C38_ofRBI]
  have k4 : ∀ (R : Rot) (a : RBI), R.IsProper → ABI.ofRBI (R * a) = R * ABI.ofRBI a := by
    intro R a hR
    refine ABI.ext_app fun t => ?_
    have e : t = R * (R.inv * t) := by
      change _ = Twist.mk (R * (R.inv * t.vel)) (R * (R.inv * t.rot))
      rw [hR.app_inv_app, hR.app_inv_app]
    rw [e, C38_ofRBI, C37_rotation _ hR, ABI.rot_app _ hR, C38_ofRBI]
  refine ⟨?_, ?_, k3 p, k4 R a hR, ?_⟩
  · refine ABI.ext_app fun t => ?_
    rw [C38_ofRBI, (C37_linear a b 0 t t).1, (C38_linear _ _ 0 t t).1, C38_ofRBI, C38_ofRBI]
  · refine ABI.ext_app fun t => ?_
    rw [C38_ofRBI, (C37_linear a b k t t).2.1, (C38_linear _ (ABI.ofRBI a) k t t).2.2.1, C38_ofRBI]
  · rw [RBI.frame_eq, k4 _ _ hT, k3, ABI.frame_eq]

/-- The operations keep articulated inertias symmetric. -/
theorem C38_symm (a b : ABI) (ha : a.Symm) (hb : b.Symm) (k : ℝ) (p : Vec) (R : Rot) (T : Frame) (i : RBI) (hi : i.I.tr = i.I) :
    (a + b).Symm ∧ (a - b).Symm ∧ (k • a).Symm ∧ (a.refPoint p).Symm ∧ (R * a).Symm ∧ (T * a).Symm ∧ (ABI.ofRBI i).Symm := by
  have kp : ∀ p, (a.refPoint p).Symm := by
    intro p
    refine ⟨ha.1, ?_⟩
    have hs : (Mat3.skew p).tr = (-1 : ℝ) • Mat3.skew p := by ext <;> simp [Mat3.skew, Mat3.tr, Mat3.smul_def]
    refine Mat3.ext_app fun v => ?_
    simp only [ABI.refPoint, Mat3.tr_add, Mat3.tr_sub, Mat3.tr_mul, Mat3.tr_tr, ha.1, ha.2, hs, Mat3.add_app, Mat3.sub_app,
      Mat3.mul_app, Mat3.smul_app, Mat3.app_smul, Mat3.app_sub]
    module
  have kr : ∀ (R : Rot) (a : ABI), a.Symm → (R * a).Symm := by
    intro R a ha
    constructor
    · change Mat3.tr (_ * _ * _) = _
      rw [Mat3.tr_mul, Mat3.tr_mul, Mat3.tr_tr, ha.1, ← Mat3.mul_assoc]; rfl
    · change Mat3.tr (_ * _ * _) = _
      rw [Mat3.tr_mul, Mat3.tr_mul, Mat3.tr_tr, ha.2, ← Mat3.mul_assoc]; rfl
  refine ⟨⟨?_, ?_⟩, ⟨?_, ?_⟩, ⟨?_, ?_⟩, kp p, kr R a ha, ?_, ?_, ?_⟩
  · rw [ABI.add_def]; simp only [Mat3.tr_add, ha.1, hb.1]
  · rw [ABI.add_def]; simp only [Mat3.tr_add, ha.2, hb.2]
  · rw [ABI.sub_def]; simp only [Mat3.tr_sub, ha.1, hb.1]
  · rw [ABI.sub_def]; simp only [Mat3.tr_sub, ha.2, hb.2]
  · rw [ABI.smul_def]; simp only [Mat3.tr_smul, ha.1]
  · rw [ABI.smul_def]; simp only [Mat3.tr_smul, ha.2]
  · rw [ABI.frame_eq]; exact kr _ _ (kp _)
  · rfl
  · exact hi

/-- Without symmetry of the mass block the change of reference point would not transform the wrench: the hypothesis of
`C38_transform` is needed. -/
theorem C38_transform_needs_symm : ∃ (i : ABI) (p : Vec) (t : Twist), i.refPoint p * t.refPoint p ≠ (i * t).refPoint p := by
  refine ⟨⟨⟨0, 1, 0, 0, 0, 0, 0, 0, 0⟩, 0, 0⟩, ⟨1, 0, 0⟩, ⟨0, ⟨0, 0, 1⟩⟩, fun h => ?_⟩
  have := congrArg (fun w => w.force.x) h
  simp [ABI.mul_twist, ABI.refPoint, Twist.refPoint, Wrench.refPoint, Mat3.tr, Mat3.skew, Mat3.sub_def, Mat3.mul_def, Mat3.zero_def] at this

example : (ABI.ofRBI (RBI.ofCog 2 ⟨1, 0, 0⟩ (rotationalInertia 1 2 3 0 0 0))).Symm := by
  constructor <;> ext <;> simp [ABI.ofRBI, RBI.ofCog, Mat3.tr, Mat3.smul_def, Mat3.sub_def, Mat3.one_def, Mat3.outer, rotationalInertia]

end KDL
