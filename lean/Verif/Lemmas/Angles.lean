import Verif.Lemmas.Rotations
import Mathlib.Analysis.SpecialFunctions.Trigonometric.Bounds

/-! Facts on `atan2` and on the entries of proper rotations. -/

namespace KDL
open Real

theorem norm_mk (x y : ℝ) : ‖(⟨x, y⟩ : ℂ)‖ = sqrt (x ^ 2 + y ^ 2) := by
  rw [Complex.norm_def, Complex.normSq_mk]; congr 1; ring

theorem sqrt_mul_cos_atan2 (y x : ℝ) : sqrt (x ^ 2 + y ^ 2) * cos (atan2 y x) = x := by
  rw [← norm_mk]; exact Complex.norm_mul_cos_arg _

theorem sqrt_mul_sin_atan2 (y x : ℝ) : sqrt (x ^ 2 + y ^ 2) * sin (atan2 y x) = y := by
  rw [← norm_mk]; exact Complex.norm_mul_sin_arg _

theorem atan2_range (y x : ℝ) : -π < atan2 y x ∧ atan2 y x ≤ π :=
  ⟨Complex.neg_pi_lt_arg _, Complex.arg_le_pi _⟩

theorem atan2_nonneg {y x : ℝ} (h : 0 ≤ y) : 0 ≤ atan2 y x := Complex.arg_nonneg_iff.mpr h

theorem atan2_abs_le {y x : ℝ} (h : 0 ≤ x) : |atan2 y x| ≤ π / 2 :=
  Complex.abs_arg_le_pi_div_two_iff.mpr h

/-- on the unit circle `atan2` inverts `(cos, sin)` -/
theorem cos_atan2_of_unit {y x : ℝ} (h : x ^ 2 + y ^ 2 = 1) : cos (atan2 y x) = x := by
  have := sqrt_mul_cos_atan2 y x; rwa [h, sqrt_one, one_mul] at this
theorem sin_atan2_of_unit {y x : ℝ} (h : x ^ 2 + y ^ 2 = 1) : sin (atan2 y x) = y := by
  have := sqrt_mul_sin_atan2 y x; rwa [h, sqrt_one, one_mul] at this

theorem atan2_sin_cos {a : ℝ} (h : a ∈ Set.Ioc (-π) π) : atan2 (sin a) (cos a) = a := by
  have := Complex.arg_cos_add_sin_mul_I h
  refine Eq.trans ?_ this
  unfold atan2
  congr 1
  apply Complex.ext <;> simp [← Complex.ofReal_cos, ← Complex.ofReal_sin]

namespace Rot.IsProper
variable {R : Rot}

/-- rows are orthonormal -/
theorem rows (h : R.IsProper) :
    (R.m00 ^ 2 + R.m01 ^ 2 + R.m02 ^ 2 = 1 ∧ R.m10 ^ 2 + R.m11 ^ 2 + R.m12 ^ 2 = 1 ∧
     R.m20 ^ 2 + R.m21 ^ 2 + R.m22 ^ 2 = 1) ∧
    (R.m00 * R.m10 + R.m01 * R.m11 + R.m02 * R.m12 = 0 ∧
     R.m00 * R.m20 + R.m01 * R.m21 + R.m02 * R.m22 = 0 ∧
     R.m10 * R.m20 + R.m11 * R.m21 + R.m12 * R.m22 = 0) := by
  have o := h.orth
  rw [Rot.ext_iff] at o
  simp at o
  obtain ⟨h00, h01, h02, h10, h11, h12, h20, h21, h22⟩ := o
  refine ⟨⟨?_, ?_, ?_⟩, h01, h02, h12⟩
  · linear_combination h00
  · linear_combination h11
  · linear_combination h22

/-- columns are orthonormal -/
theorem cols (h : R.IsProper) :
    (R.m00 ^ 2 + R.m10 ^ 2 + R.m20 ^ 2 = 1 ∧ R.m01 ^ 2 + R.m11 ^ 2 + R.m21 ^ 2 = 1 ∧
     R.m02 ^ 2 + R.m12 ^ 2 + R.m22 ^ 2 = 1) ∧
    (R.m00 * R.m01 + R.m10 * R.m11 + R.m20 * R.m21 = 0 ∧
     R.m00 * R.m02 + R.m10 * R.m12 + R.m20 * R.m22 = 0 ∧
     R.m01 * R.m02 + R.m11 * R.m12 + R.m21 * R.m22 = 0) := h.inv.rows

/-- The quadratic identities behind quaternion and axis-angle extraction. -/
structure Gram (R : Rot) : Prop where
  wx2 : (R.m21 - R.m12) ^ 2 = (1 + R.m00 + R.m11 + R.m22) * (1 + R.m00 - R.m11 - R.m22)
  wy2 : (R.m02 - R.m20) ^ 2 = (1 + R.m00 + R.m11 + R.m22) * (1 - R.m00 + R.m11 - R.m22)
  wz2 : (R.m10 - R.m01) ^ 2 = (1 + R.m00 + R.m11 + R.m22) * (1 - R.m00 - R.m11 + R.m22)
  xy2 : (R.m01 + R.m10) ^ 2 = (1 + R.m00 - R.m11 - R.m22) * (1 - R.m00 + R.m11 - R.m22)
  xz2 : (R.m02 + R.m20) ^ 2 = (1 + R.m00 - R.m11 - R.m22) * (1 - R.m00 - R.m11 + R.m22)
  yz2 : (R.m12 + R.m21) ^ 2 = (1 - R.m00 + R.m11 - R.m22) * (1 - R.m00 - R.m11 + R.m22)
  wxwy : (R.m21 - R.m12) * (R.m02 - R.m20) = (1 + R.m00 + R.m11 + R.m22) * (R.m01 + R.m10)
  wxwz : (R.m21 - R.m12) * (R.m10 - R.m01) = (1 + R.m00 + R.m11 + R.m22) * (R.m02 + R.m20)
  wywz : (R.m02 - R.m20) * (R.m10 - R.m01) = (1 + R.m00 + R.m11 + R.m22) * (R.m12 + R.m21)
  wxxy : (R.m21 - R.m12) * (R.m01 + R.m10) = (1 + R.m00 - R.m11 - R.m22) * (R.m02 - R.m20)
  wxxz : (R.m21 - R.m12) * (R.m02 + R.m20) = (1 + R.m00 - R.m11 - R.m22) * (R.m10 - R.m01)
  xyxz : (R.m01 + R.m10) * (R.m02 + R.m20) = (1 + R.m00 - R.m11 - R.m22) * (R.m12 + R.m21)
  wyxy : (R.m02 - R.m20) * (R.m01 + R.m10) = (1 - R.m00 + R.m11 - R.m22) * (R.m21 - R.m12)
  wyyz : (R.m02 - R.m20) * (R.m12 + R.m21) = (1 - R.m00 + R.m11 - R.m22) * (R.m10 - R.m01)
  xyyz : (R.m01 + R.m10) * (R.m12 + R.m21) = (1 - R.m00 + R.m11 - R.m22) * (R.m02 + R.m20)
  wzxz : (R.m10 - R.m01) * (R.m02 + R.m20) = (1 - R.m00 - R.m11 + R.m22) * (R.m21 - R.m12)
  wzyz : (R.m10 - R.m01) * (R.m12 + R.m21) = (1 - R.m00 - R.m11 + R.m22) * (R.m02 - R.m20)
  xzyz : (R.m02 + R.m20) * (R.m12 + R.m21) = (1 - R.m00 - R.m11 + R.m22) * (R.m01 + R.m10)

theorem gram (h : R.IsProper) : Gram R := by
  obtain ⟨⟨c0, c1, c2⟩, ⟨c3, c4, c5⟩, ⟨c6, c7, c8⟩⟩ := h.cof
  obtain ⟨⟨r0, r1, r2⟩, r01, r02, r12⟩ := h.rows
  obtain ⟨⟨k0, k1, k2⟩, k01, k02, k12⟩ := h.cols
  constructor
  · linear_combination r1 + r2 - k0 + 2 * c0
  · linear_combination r0 + r2 - k1 + 2 * c4
  · linear_combination r0 + r1 - k2 + 2 * c8
  · linear_combination r0 + r1 - k2 - 2 * c8
  · linear_combination r0 + r2 - k1 - 2 * c4
  · linear_combination r1 + r2 - k0 - 2 * c0
  · linear_combination c3 + c1 - r01 - k01
  · linear_combination c6 + c2 - r02 - k02
  · linear_combination c5 + c7 - r12 - k12
  all_goals linarith

end Rot.IsProper
end KDL
