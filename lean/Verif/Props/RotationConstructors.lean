import Verif.Lemmas.Calculus

/-! C02, C10: rotation constructors. -/

namespace KDL
open Real

/-! ## C02 every constructor yields a proper rotation -/

theorem C02_rotX (a : ℝ) : (Rot.rotX a).IsProper := Rot.isProper_rotX a
theorem C02_rotY (a : ℝ) : (Rot.rotY a).IsProper := Rot.isProper_rotY a
theorem C02_rotZ (a : ℝ) : (Rot.rotZ a).IsProper := Rot.isProper_rotZ a
theorem C02_rpy (r p y : ℝ) : (Rot.rpy r p y).IsProper := Rot.isProper_rpy r p y
theorem C02_eulerZYX (a b c : ℝ) : (Rot.eulerZYX a b c).IsProper := Rot.isProper_rpy c b a
theorem C02_eulerZYZ (a b c : ℝ) : (Rot.eulerZYZ a b c).IsProper := Rot.isProper_eulerZYZ a b c
theorem C02_rot2 (u : Vec) (hu : u.dot u = 1) (a : ℝ) : (Rot.rot2 u a).IsProper :=
  Rot.isProper_rot2 u hu a
/-- `Rotation::Rot` normalises its argument, so no hypothesis on the axis is needed (even the zero axis). -/
theorem C02_rot (axis : Vec) (a : ℝ) : (Rot.rot axis a).IsProper := Rot.isProper_rot axis a
/-- The free function `Rot(Vector)`. -/
theorem C02_rotVec (axis : Vec) : (Rot.ofRotVec axis).IsProper := Rot.isProper_ofRotVec axis
theorem C02_quaternion (x y z w : ℝ) (h : x * x + y * y + z * z + w * w = 1) :
    (Rot.quaternion x y z w).IsProper := Rot.isProper_quaternion x y z w h
theorem C02_doRot (R : Rot) (h : R.IsProper) (a : ℝ) :
    (R.doRotX a).IsProper ∧ (R.doRotY a).IsProper ∧ (R.doRotZ a).IsProper := by
  have e1 : R.doRotX a = R * Rot.rotX a := by ext <;> simp [Rot.doRotX, Rot.rotX] <;> ring
  have e2 : R.doRotY a = R * Rot.rotY a := by ext <;> simp [Rot.doRotY, Rot.rotY] <;> ring
  have e3 : R.doRotZ a = R * Rot.rotZ a := by ext <;> simp [Rot.doRotZ, Rot.rotZ] <;> ring
  rw [e1, e2, e3]
  exact ⟨h.mul (Rot.isProper_rotX a), h.mul (Rot.isProper_rotY a), h.mul (Rot.isProper_rotZ a)⟩
/-- RPY and Euler angles are the documented products of elementary rotations. -/
theorem C02_products (a b c : ℝ) :
    Rot.rpy a b c = Rot.rotZ c * Rot.rotY b * Rot.rotX a ∧
    Rot.eulerZYX a b c = Rot.rotZ a * Rot.rotY b * Rot.rotX c ∧
    Rot.eulerZYZ a b c = Rot.rotZ a * Rot.rotY b * Rot.rotZ c :=
  ⟨Rot.rpy_eq a b c, Rot.rpy_eq c b a, Rot.eulerZYZ_eq a b c⟩

-- the unit-axis hypothesis of `C02_rot2` is needed: with a non-unit axis the result is not a rotation
example : ¬ (Rot.rot2 ⟨2, 0, 0⟩ π).IsProper := by
  rintro ⟨_, h⟩; norm_num [Rot.rot2, Rot.det] at h
example : (Rot.quaternion 0 0 1 0).m00 = -1 := by norm_num [Rot.quaternion]

/-! ## C10 one-parameter groups -/

theorem C10_additive (u : Vec) (hu : u.dot u = 1) (a b : ℝ) :
    Rot.rot2 u a * Rot.rot2 u b = Rot.rot2 u (a + b) := Rot.rot2_mul u hu a b
theorem C10_zero (u : Vec) : Rot.rot2 u 0 = 1 := Rot.rot2_zero u
theorem C10_inverse (u : Vec) (a : ℝ) : Rot.rot2 u (-a) = (Rot.rot2 u a).inv := Rot.rot2_neg u a
theorem C10_opposite_axis (u : Vec) (a : ℝ) : Rot.rot2 (-u) (-a) = Rot.rot2 u a := by
  ext <;> simp [Rot.rot2]
theorem C10_fixes_axis (u : Vec) (hu : u.dot u = 1) (a : ℝ) : Rot.rot2 u a * u = u :=
  Rot.rot2_axis u hu a
theorem C10_conjugation (R : Rot) (h : R.IsProper) (u : Vec) (a : ℝ) :
    R * Rot.rot2 u a * R.inv = Rot.rot2 (R * u) a := Rot.rot2_conj R h u a
theorem C10_elementary (a : ℝ) :
    Rot.rotX a = Rot.rot2 ⟨1, 0, 0⟩ a ∧ Rot.rotY a = Rot.rot2 ⟨0, 1, 0⟩ a ∧
    Rot.rotZ a = Rot.rot2 ⟨0, 0, 1⟩ a := ⟨Rot.rotX_eq a, Rot.rotY_eq a, Rot.rotZ_eq a⟩
theorem C10_periodic (u : Vec) (a : ℝ) : Rot.rot2 u (a + 2 * π) = Rot.rot2 u a := by
  simp [Rot.rot2]
/-- Rodrigues' formula. -/
theorem C10_rodrigues (u : Vec) (a : ℝ) (v : Vec) :
    Rot.rot2 u a * v = cos a • v + sin a • (u * v) + ((1 - cos a) * u.dot v) • u := Rot.rot2_app u a v
/-- The angular velocity of a rotation about a fixed axis is `q̇ u`. -/
theorem C10_angular_velocity (u : Vec) (hu : u.dot u = 1) (q : ℝ → ℝ) (q' t : ℝ)
    (hq : HasDerivAt q q' t) : Rot.HasAngVel (fun s => Rot.rot2 u (q s)) (q' • u) t :=
  Rot.HasAngVel.rot2 u hu hq

example : Rot.rot2 ⟨0, 0, 1⟩ π * (⟨1, 0, 0⟩ : Vec) = ⟨-1, 0, 0⟩ := by ext <;> norm_num [Rot.rot2]

end KDL
