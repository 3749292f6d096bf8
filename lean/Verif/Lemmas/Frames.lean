import Verif.Model.Frames

/-! Component lemmas and module structure for the geometric types (helpers, no property statements). -/

namespace KDL

/-! ### Vec -/
namespace Vec
@[simp] theorem zero_x : (0 : Vec).x = 0 := rfl
@[simp] theorem zero_y : (0 : Vec).y = 0 := rfl
@[simp] theorem zero_z : (0 : Vec).z = 0 := rfl
@[simp] theorem add_x (a b : Vec) : (a + b).x = a.x + b.x := rfl
@[simp] theorem add_y (a b : Vec) : (a + b).y = a.y + b.y := rfl
@[simp] theorem add_z (a b : Vec) : (a + b).z = a.z + b.z := rfl
@[simp] theorem sub_x (a b : Vec) : (a - b).x = a.x - b.x := rfl
@[simp] theorem sub_y (a b : Vec) : (a - b).y = a.y - b.y := rfl
@[simp] theorem sub_z (a b : Vec) : (a - b).z = a.z - b.z := rfl
@[simp] theorem neg_x (a : Vec) : (-a).x = -a.x := rfl
@[simp] theorem neg_y (a : Vec) : (-a).y = -a.y := rfl
@[simp] theorem neg_z (a : Vec) : (-a).z = -a.z := rfl
@[simp] theorem smul_x (c : ℝ) (a : Vec) : (c • a).x = c * a.x := rfl
@[simp] theorem smul_y (c : ℝ) (a : Vec) : (c • a).y = c * a.y := rfl
@[simp] theorem smul_z (c : ℝ) (a : Vec) : (c • a).z = c * a.z := rfl
@[simp] theorem div_x (a : Vec) (c : ℝ) : (a / c).x = a.x / c := rfl
@[simp] theorem div_y (a : Vec) (c : ℝ) : (a / c).y = a.y / c := rfl
@[simp] theorem div_z (a : Vec) (c : ℝ) : (a / c).z = a.z / c := rfl
@[simp] theorem mul_x (a b : Vec) : (a * b).x = a.y * b.z - a.z * b.y := rfl
@[simp] theorem mul_y (a b : Vec) : (a * b).y = a.z * b.x - a.x * b.z := rfl
@[simp] theorem mul_z (a b : Vec) : (a * b).z = a.x * b.y - a.y * b.x := rfl

instance : AddCommGroup Vec where
  add_assoc a b c := by ext <;> simp [add_assoc]
  zero_add a := by ext <;> simp
  add_zero a := by ext <;> simp
  nsmul := nsmulRec
  zsmul := zsmulRec
  neg_add_cancel a := by ext <;> simp
  add_comm a b := by ext <;> simp [add_comm]
  sub_eq_add_neg a b := by ext <;> simp [sub_eq_add_neg]

instance : Module ℝ Vec where
  one_smul a := by ext <;> simp
  mul_smul c d a := by ext <;> simp [mul_assoc]
  smul_zero c := by ext <;> simp
  smul_add c a b := by ext <;> simp [mul_add]
  add_smul c d a := by ext <;> simp [add_mul]
  zero_smul a := by ext <;> simp

theorem div_eq_smul (a : Vec) (c : ℝ) : a / c = c⁻¹ • a := by
  ext <;> simp [div_eq_inv_mul]

/- cross product: bilinear, antisymmetric -/
theorem cross_add (a b c : Vec) : a * (b + c) = a * b + a * c := by ext <;> simp <;> ring
theorem add_cross (a b c : Vec) : (a + b) * c = a * c + b * c := by ext <;> simp <;> ring
theorem cross_sub (a b c : Vec) : a * (b - c) = a * b - a * c := by ext <;> simp <;> ring
theorem sub_cross (a b c : Vec) : (a - b) * c = a * c - b * c := by ext <;> simp <;> ring
theorem smul_cross (r : ℝ) (a b : Vec) : (r • a) * b = r • (a * b) := by ext <;> simp <;> ring
theorem cross_smul (r : ℝ) (a b : Vec) : a * (r • b) = r • (a * b) := by ext <;> simp <;> ring
@[simp] theorem cross_self (a : Vec) : a * a = 0 := by ext <;> simp <;> ring
theorem cross_comm (a b : Vec) : a * b = -(b * a) := by ext <;> simp <;> ring
@[simp] theorem zero_cross (a : Vec) : (0 : Vec) * a = 0 := by ext <;> simp
@[simp] theorem cross_zero (a : Vec) : a * (0 : Vec) = 0 := by ext <;> simp
@[simp] theorem neg_cross (a b : Vec) : (-a) * b = -(a * b) := by ext <;> simp <;> ring
@[simp] theorem cross_neg (a b : Vec) : a * (-b) = -(a * b) := by ext <;> simp <;> ring
theorem jacobi (a b c : Vec) : a * (b * c) = (a * b) * c + b * (a * c) := by
  ext <;> simp <;> ring
theorem cross_cross (a b c : Vec) : a * (b * c) = (a.dot c) • b - (a.dot b) • c := by
  ext <;> simp [dot] <;> ring

theorem dot_comm (a b : Vec) : a.dot b = b.dot a := by simp only [dot]; ring
theorem dot_add (a b c : Vec) : a.dot (b + c) = a.dot b + a.dot c := by simp [dot]; ring
theorem add_dot (a b c : Vec) : (a + b).dot c = a.dot c + b.dot c := by simp [dot]; ring
theorem dot_sub (a b c : Vec) : a.dot (b - c) = a.dot b - a.dot c := by simp [dot]; ring
theorem sub_dot (a b c : Vec) : (a - b).dot c = a.dot c - b.dot c := by simp [dot]; ring
theorem smul_dot (r : ℝ) (a b : Vec) : (r • a).dot b = r * a.dot b := by simp [dot]; ring
theorem dot_smul (r : ℝ) (a b : Vec) : a.dot (r • b) = r * a.dot b := by simp [dot]; ring
@[simp] theorem zero_dot (a : Vec) : (0 : Vec).dot a = 0 := by simp [dot]
@[simp] theorem dot_zero (a : Vec) : a.dot 0 = 0 := by simp [dot]
@[simp] theorem neg_dot (a b : Vec) : (-a).dot b = -a.dot b := by simp [dot]; ring
@[simp] theorem dot_neg (a b : Vec) : a.dot (-b) = -a.dot b := by simp [dot]; ring
theorem dot_cross (a b c : Vec) : a.dot (b * c) = b.dot (c * a) := by simp [dot]; ring
theorem dot_cross' (a b c : Vec) : a.dot (b * c) = (a * b).dot c := by simp [dot]; ring
theorem dot_self_nonneg (a : Vec) : 0 ≤ a.dot a := by
  simp only [dot]; nlinarith [mul_self_nonneg a.x, mul_self_nonneg a.y, mul_self_nonneg a.z]
end Vec

/-! ### Rot -/
namespace Rot
@[simp] theorem one_m00 : (1 : Rot).m00 = 1 := rfl
@[simp] theorem one_m01 : (1 : Rot).m01 = 0 := rfl
@[simp] theorem one_m02 : (1 : Rot).m02 = 0 := rfl
@[simp] theorem one_m10 : (1 : Rot).m10 = 0 := rfl
@[simp] theorem one_m11 : (1 : Rot).m11 = 1 := rfl
@[simp] theorem one_m12 : (1 : Rot).m12 = 0 := rfl
@[simp] theorem one_m20 : (1 : Rot).m20 = 0 := rfl
@[simp] theorem one_m21 : (1 : Rot).m21 = 0 := rfl
@[simp] theorem one_m22 : (1 : Rot).m22 = 1 := rfl
@[simp] theorem mul_m00 (l r : Rot) : (l * r).m00 = l.m00 * r.m00 + l.m01 * r.m10 + l.m02 * r.m20 := rfl
@[simp] theorem mul_m01 (l r : Rot) : (l * r).m01 = l.m00 * r.m01 + l.m01 * r.m11 + l.m02 * r.m21 := rfl
@[simp] theorem mul_m02 (l r : Rot) : (l * r).m02 = l.m00 * r.m02 + l.m01 * r.m12 + l.m02 * r.m22 := rfl
@[simp] theorem mul_m10 (l r : Rot) : (l * r).m10 = l.m10 * r.m00 + l.m11 * r.m10 + l.m12 * r.m20 := rfl
@[simp] theorem mul_m11 (l r : Rot) : (l * r).m11 = l.m10 * r.m01 + l.m11 * r.m11 + l.m12 * r.m21 := rfl
@[simp] theorem mul_m12 (l r : Rot) : (l * r).m12 = l.m10 * r.m02 + l.m11 * r.m12 + l.m12 * r.m22 := rfl
@[simp] theorem mul_m20 (l r : Rot) : (l * r).m20 = l.m20 * r.m00 + l.m21 * r.m10 + l.m22 * r.m20 := rfl
@[simp] theorem mul_m21 (l r : Rot) : (l * r).m21 = l.m20 * r.m01 + l.m21 * r.m11 + l.m22 * r.m21 := rfl
@[simp] theorem mul_m22 (l r : Rot) : (l * r).m22 = l.m20 * r.m02 + l.m21 * r.m12 + l.m22 * r.m22 := rfl
@[simp] theorem app_x (R : Rot) (v : Vec) : (R * v).x = R.m00 * v.x + R.m01 * v.y + R.m02 * v.z := rfl
@[simp] theorem app_y (R : Rot) (v : Vec) : (R * v).y = R.m10 * v.x + R.m11 * v.y + R.m12 * v.z := rfl
@[simp] theorem app_z (R : Rot) (v : Vec) : (R * v).z = R.m20 * v.x + R.m21 * v.y + R.m22 * v.z := rfl
@[simp] theorem inv_m00 (R : Rot) : R.inv.m00 = R.m00 := rfl
@[simp] theorem inv_m01 (R : Rot) : R.inv.m01 = R.m10 := rfl
@[simp] theorem inv_m02 (R : Rot) : R.inv.m02 = R.m20 := rfl
@[simp] theorem inv_m10 (R : Rot) : R.inv.m10 = R.m01 := rfl
@[simp] theorem inv_m11 (R : Rot) : R.inv.m11 = R.m11 := rfl
@[simp] theorem inv_m12 (R : Rot) : R.inv.m12 = R.m21 := rfl
@[simp] theorem inv_m20 (R : Rot) : R.inv.m20 = R.m02 := rfl
@[simp] theorem inv_m21 (R : Rot) : R.inv.m21 = R.m12 := rfl
@[simp] theorem inv_m22 (R : Rot) : R.inv.m22 = R.m22 := rfl
@[simp] theorem twist_vel (R : Rot) (t : Twist) : (R * t).vel = R * t.vel := rfl
@[simp] theorem twist_rot (R : Rot) (t : Twist) : (R * t).rot = R * t.rot := rfl
@[simp] theorem wrench_force (R : Rot) (t : Wrench) : (R * t).force = R * t.force := rfl
@[simp] theorem wrench_torque (R : Rot) (t : Wrench) : (R * t).torque = R * t.torque := rfl

instance : Monoid Rot where
  mul_assoc a b c := by ext <;> simp <;> ring
  one_mul a := by ext <;> simp
  mul_one a := by ext <;> simp

theorem mul_app (R S : Rot) (v : Vec) : (R * S) * v = R * (S * v) := by ext <;> simp <;> ring
@[simp] theorem one_app (v : Vec) : (1 : Rot) * v = v := by ext <;> simp
theorem app_add (R : Rot) (a b : Vec) : R * (a + b) = R * a + R * b := by ext <;> simp <;> ring
theorem app_sub (R : Rot) (a b : Vec) : R * (a - b) = R * a - R * b := by ext <;> simp <;> ring
@[simp] theorem app_neg (R : Rot) (a : Vec) : R * (-a) = -(R * a) := by ext <;> simp <;> ring
theorem app_smul (R : Rot) (c : ℝ) (a : Vec) : R * (c • a) = c • (R * a) := by ext <;> simp <;> ring
@[simp] theorem app_zero (R : Rot) : R * (0 : Vec) = 0 := by ext <;> simp
theorem invVec_eq (R : Rot) (v : Vec) : R.invVec v = R.inv * v := rfl
@[simp] theorem inv_inv (R : Rot) : R.inv.inv = R := rfl
@[simp] theorem inv_one : (1 : Rot).inv = 1 := rfl
theorem inv_mul (R S : Rot) : (R * S).inv = S.inv * R.inv := by ext <;> simp <;> ring
theorem dot_app (R : Rot) (a b : Vec) : (R * a).dot b = a.dot (R.inv * b) := by simp [Vec.dot]; ring
theorem dot_app' (R : Rot) (a b : Vec) : a.dot (R * b) = (R.inv * a).dot b := by simp [Vec.dot]; ring

namespace IsProper
variable {R S : Rot}

theorem cof (h : R.IsProper) :
    (R.m11 * R.m22 - R.m12 * R.m21 = R.m00 ∧ R.m12 * R.m20 - R.m10 * R.m22 = R.m01 ∧
     R.m10 * R.m21 - R.m11 * R.m20 = R.m02) ∧
    (R.m21 * R.m02 - R.m22 * R.m01 = R.m10 ∧ R.m22 * R.m00 - R.m20 * R.m02 = R.m11 ∧
     R.m20 * R.m01 - R.m21 * R.m00 = R.m12) ∧
    (R.m01 * R.m12 - R.m02 * R.m11 = R.m20 ∧ R.m02 * R.m10 - R.m00 * R.m12 = R.m21 ∧
     R.m00 * R.m11 - R.m01 * R.m10 = R.m22) := by
  have o := h.orth
  have d := h.det
  rw [Rot.ext_iff] at o
  simp at o
  obtain ⟨h00, h01, h02, h10, h11, h12, h20, h21, h22⟩ := o
  simp only [Rot.det] at d
  refine ⟨⟨?_, ?_, ?_⟩, ⟨?_, ?_, ?_⟩, ⟨?_, ?_, ?_⟩⟩
  · linear_combination R.m00 * d - (R.m11 * R.m22 - R.m12 * R.m21) * h00
      - (R.m02 * R.m21 - R.m01 * R.m22) * h10 - (R.m01 * R.m12 - R.m02 * R.m11) * h20
  · linear_combination R.m01 * d - (R.m12 * R.m20 - R.m10 * R.m22) * h00
      - (R.m22 * R.m00 - R.m20 * R.m02) * h10 - (R.m02 * R.m10 - R.m00 * R.m12) * h20
  · linear_combination R.m02 * d - (R.m10 * R.m21 - R.m11 * R.m20) * h00
      - (R.m20 * R.m01 - R.m21 * R.m00) * h10 - (R.m00 * R.m11 - R.m01 * R.m10) * h20
  · linear_combination R.m10 * d - (R.m11 * R.m22 - R.m12 * R.m21) * h01
      - (R.m02 * R.m21 - R.m01 * R.m22) * h11 - (R.m01 * R.m12 - R.m02 * R.m11) * h21
  · linear_combination R.m11 * d - (R.m12 * R.m20 - R.m10 * R.m22) * h01
      - (R.m22 * R.m00 - R.m20 * R.m02) * h11 - (R.m02 * R.m10 - R.m00 * R.m12) * h21
  · linear_combination R.m12 * d - (R.m10 * R.m21 - R.m11 * R.m20) * h01
      - (R.m20 * R.m01 - R.m21 * R.m00) * h11 - (R.m00 * R.m11 - R.m01 * R.m10) * h21
  · linear_combination R.m20 * d - (R.m11 * R.m22 - R.m12 * R.m21) * h02
      - (R.m02 * R.m21 - R.m01 * R.m22) * h12 - (R.m01 * R.m12 - R.m02 * R.m11) * h22
  · linear_combination R.m21 * d - (R.m12 * R.m20 - R.m10 * R.m22) * h02
      - (R.m22 * R.m00 - R.m20 * R.m02) * h12 - (R.m02 * R.m10 - R.m00 * R.m12) * h22
  · linear_combination R.m22 * d - (R.m10 * R.m21 - R.m11 * R.m20) * h02
      - (R.m20 * R.m01 - R.m21 * R.m00) * h12 - (R.m00 * R.m11 - R.m01 * R.m10) * h22

theorem inv_mul_self (h : R.IsProper) : R.inv * R = 1 := by
  obtain ⟨⟨c0, c1, c2⟩, ⟨c3, c4, c5⟩, ⟨c6, c7, c8⟩⟩ := h.cof
  have d := h.det
  simp only [Rot.det] at d
  ext <;> simp
  · linear_combination d - R.m00 * c0 - R.m10 * c3 - R.m20 * c6
  · linear_combination - R.m01 * c0 - R.m11 * c3 - R.m21 * c6
  · linear_combination - R.m02 * c0 - R.m12 * c3 - R.m22 * c6
  · linear_combination - R.m01 * c0 - R.m11 * c3 - R.m21 * c6
  · linear_combination d - R.m01 * c1 - R.m11 * c4 - R.m21 * c7
  · linear_combination - R.m02 * c1 - R.m12 * c4 - R.m22 * c7
  · linear_combination - R.m02 * c0 - R.m12 * c3 - R.m22 * c6
  · linear_combination - R.m02 * c1 - R.m12 * c4 - R.m22 * c7
  · linear_combination d - R.m02 * c2 - R.m12 * c5 - R.m22 * c8

theorem det_mul (R S : Rot) : (R * S).det = R.det * S.det := by simp [Rot.det]; ring
theorem det_inv (R : Rot) : R.inv.det = R.det := by simp [Rot.det]; ring

theorem one : (1 : Rot).IsProper := ⟨by simp, by simp [Rot.det]⟩

theorem inv (h : R.IsProper) : R.inv.IsProper :=
  ⟨by rw [Rot.inv_inv]; exact h.inv_mul_self, by rw [det_inv, h.det]⟩

theorem mul (h : R.IsProper) (k : S.IsProper) : (R * S).IsProper :=
  ⟨by rw [Rot.inv_mul, mul_assoc, ← mul_assoc S, k.orth, one_mul, h.orth],
   by rw [det_mul, h.det, k.det, one_mul]⟩

theorem app_inv_app (h : R.IsProper) (v : Vec) : R * (R.inv * v) = v := by
  rw [← Rot.mul_app, h.orth, Rot.one_app]
theorem inv_app_app (h : R.IsProper) (v : Vec) : R.inv * (R * v) = v := by
  rw [← Rot.mul_app, h.inv_mul_self, Rot.one_app]

theorem dot (h : R.IsProper) (a b : Vec) : (R * a).dot (R * b) = a.dot b := by
  rw [Rot.dot_app, h.inv_app_app]

theorem cross (h : R.IsProper) (a b : Vec) : (R * a) * (R * b) = R * (a * b) := by
  obtain ⟨⟨c0, c1, c2⟩, ⟨c3, c4, c5⟩, ⟨c6, c7, c8⟩⟩ := h.cof
  ext <;> simp
  · linear_combination (a.y * b.z - a.z * b.y) * c0 + (a.z * b.x - a.x * b.z) * c1
      + (a.x * b.y - a.y * b.x) * c2
  · linear_combination (a.y * b.z - a.z * b.y) * c3 + (a.z * b.x - a.x * b.z) * c4
      + (a.x * b.y - a.y * b.x) * c5
  · linear_combination (a.y * b.z - a.z * b.y) * c6 + (a.z * b.x - a.x * b.z) * c7
      + (a.x * b.y - a.y * b.x) * c8

end IsProper
end Rot

/-! ### Twist -/
namespace Twist
@[simp] theorem zero_vel : (0 : Twist).vel = 0 := rfl
@[simp] theorem zero_rot : (0 : Twist).rot = 0 := rfl
@[simp] theorem add_vel (a b : Twist) : (a + b).vel = a.vel + b.vel := rfl
@[simp] theorem add_rot (a b : Twist) : (a + b).rot = a.rot + b.rot := rfl
@[simp] theorem sub_vel (a b : Twist) : (a - b).vel = a.vel - b.vel := rfl
@[simp] theorem sub_rot (a b : Twist) : (a - b).rot = a.rot - b.rot := rfl
@[simp] theorem neg_vel (a : Twist) : (-a).vel = -a.vel := rfl
@[simp] theorem neg_rot (a : Twist) : (-a).rot = -a.rot := rfl
@[simp] theorem smul_vel (c : ℝ) (a : Twist) : (c • a).vel = c • a.vel := rfl
@[simp] theorem smul_rot (c : ℝ) (a : Twist) : (c • a).rot = c • a.rot := rfl
@[simp] theorem div_vel (a : Twist) (c : ℝ) : (a / c).vel = a.vel / c := rfl
@[simp] theorem div_rot (a : Twist) (c : ℝ) : (a / c).rot = a.rot / c := rfl
@[simp] theorem mul_vel (a b : Twist) : (a * b).vel = a.rot * b.vel + a.vel * b.rot := rfl
@[simp] theorem mul_rot (a b : Twist) : (a * b).rot = a.rot * b.rot := rfl
@[simp] theorem mulW_force (a : Twist) (b : Wrench) : (a * b).force = a.rot * b.force := rfl
@[simp] theorem mulW_torque (a : Twist) (b : Wrench) :
    (a * b).torque = a.rot * b.torque + a.vel * b.force := rfl
@[simp] theorem refPoint_vel (t : Twist) (v : Vec) : (t.refPoint v).vel = t.vel + t.rot * v := rfl
@[simp] theorem refPoint_rot (t : Twist) (v : Vec) : (t.refPoint v).rot = t.rot := rfl

instance : AddCommGroup Twist where
  add_assoc a b c := by ext <;> simp [add_assoc]
  zero_add a := by ext <;> simp
  add_zero a := by ext <;> simp
  nsmul := nsmulRec
  zsmul := zsmulRec
  neg_add_cancel a := by ext <;> simp
  add_comm a b := by ext <;> simp [add_comm]
  sub_eq_add_neg a b := by ext <;> simp [sub_eq_add_neg]

instance : Module ℝ Twist where
  one_smul a := by ext <;> simp
  mul_smul c d a := by ext <;> simp [mul_assoc]
  smul_zero c := by ext <;> simp
  smul_add c a b := by ext <;> simp
  add_smul c d a := by ext <;> simp [add_mul]
  zero_smul a := by ext <;> simp

theorem dot_add (t : Twist) (a b : Wrench) : t.dot (a + b) = t.dot a + t.dot b := by
  show Vec.dot t.vel (a.force + b.force) + Vec.dot t.rot (a.torque + b.torque) = _
  simp only [dot, Vec.dot_add]; ring
theorem add_dot (a b : Twist) (w : Wrench) : (a + b).dot w = a.dot w + b.dot w := by
  simp only [dot, add_vel, add_rot, Vec.add_dot]; ring
theorem smul_dot (c : ℝ) (a : Twist) (w : Wrench) : (c • a).dot w = c * a.dot w := by
  simp only [dot, smul_vel, smul_rot, Vec.smul_dot]; ring
theorem dot_smul (c : ℝ) (a : Twist) (w : Wrench) : a.dot (c • w) = c * a.dot w := by
  show Vec.dot a.vel (c • w.force) + Vec.dot a.rot (c • w.torque) = _
  simp only [dot, Vec.dot_smul]; ring
@[simp] theorem zero_dot (w : Wrench) : (0 : Twist).dot w = 0 := by simp [dot]
@[simp] theorem dot_zero (t : Twist) : t.dot 0 = 0 := by
  show Vec.dot t.vel 0 + Vec.dot t.rot 0 = 0; simp
end Twist

namespace Wrench
@[simp] theorem zero_force : (0 : Wrench).force = 0 := rfl
@[simp] theorem zero_torque : (0 : Wrench).torque = 0 := rfl
@[simp] theorem add_force (a b : Wrench) : (a + b).force = a.force + b.force := rfl
@[simp] theorem add_torque (a b : Wrench) : (a + b).torque = a.torque + b.torque := rfl
@[simp] theorem sub_force (a b : Wrench) : (a - b).force = a.force - b.force := rfl
@[simp] theorem sub_torque (a b : Wrench) : (a - b).torque = a.torque - b.torque := rfl
@[simp] theorem neg_force (a : Wrench) : (-a).force = -a.force := rfl
@[simp] theorem neg_torque (a : Wrench) : (-a).torque = -a.torque := rfl
@[simp] theorem smul_force (c : ℝ) (a : Wrench) : (c • a).force = c • a.force := rfl
@[simp] theorem smul_torque (c : ℝ) (a : Wrench) : (c • a).torque = c • a.torque := rfl
@[simp] theorem div_force (a : Wrench) (c : ℝ) : (a / c).force = a.force / c := rfl
@[simp] theorem div_torque (a : Wrench) (c : ℝ) : (a / c).torque = a.torque / c := rfl
@[simp] theorem refPoint_force (t : Wrench) (v : Vec) : (t.refPoint v).force = t.force := rfl
@[simp] theorem refPoint_torque (t : Wrench) (v : Vec) :
    (t.refPoint v).torque = t.torque + t.force * v := rfl

instance : AddCommGroup Wrench where
  add_assoc a b c := by ext <;> simp [add_assoc]
  zero_add a := by ext <;> simp
  add_zero a := by ext <;> simp
  nsmul := nsmulRec
  zsmul := zsmulRec
  neg_add_cancel a := by ext <;> simp
  add_comm a b := by ext <;> simp [add_comm]
  sub_eq_add_neg a b := by ext <;> simp [sub_eq_add_neg]

instance : Module ℝ Wrench where
  one_smul a := by ext <;> simp
  mul_smul c d a := by ext <;> simp [mul_assoc]
  smul_zero c := by ext <;> simp
  smul_add c a b := by ext <;> simp
  add_smul c d a := by ext <;> simp [add_mul]
  zero_smul a := by ext <;> simp
end Wrench

/-! ### Frame -/
namespace Frame
@[simp] theorem one_M : (1 : Frame).M = 1 := rfl
@[simp] theorem one_p : (1 : Frame).p = 0 := rfl
@[simp] theorem mul_M (F G : Frame) : (F * G).M = F.M * G.M := rfl
@[simp] theorem mul_p (F G : Frame) : (F * G).p = F.M * G.p + F.p := rfl
@[simp] theorem inv_M (F : Frame) : F.inv.M = F.M.inv := rfl
@[simp] theorem inv_p (F : Frame) : F.inv.p = -(F.M.inv * F.p) := rfl
theorem app_vec (F : Frame) (v : Vec) : F * v = F.M * v + F.p := rfl
@[simp] theorem app_twist_vel (F : Frame) (t : Twist) :
    (F * t).vel = F.M * t.vel + F.p * (F.M * t.rot) := rfl
@[simp] theorem app_twist_rot (F : Frame) (t : Twist) : (F * t).rot = F.M * t.rot := rfl
@[simp] theorem app_wrench_force (F : Frame) (w : Wrench) : (F * w).force = F.M * w.force := rfl
@[simp] theorem app_wrench_torque (F : Frame) (w : Wrench) :
    (F * w).torque = F.M * w.torque + F.p * (F.M * w.force) := rfl

instance : Monoid Frame where
  mul_assoc a b c := by
    ext1
    · simp [mul_assoc]
    · simp [Rot.mul_app, Rot.app_add, add_assoc]
  one_mul a := by ext1 <;> simp
  mul_one a := by ext1 <;> simp

theorem IsProper.one : (1 : Frame).IsProper := Rot.IsProper.one
theorem IsProper.mul {F G : Frame} (hF : F.IsProper) (hG : G.IsProper) : (F * G).IsProper :=
  Rot.IsProper.mul hF hG
theorem IsProper.inv {F : Frame} (hF : F.IsProper) : F.inv.IsProper := Rot.IsProper.inv hF
end Frame

end KDL
