import Verif.Props.EulerAngles
import Verif.Props.RotationConstructors

/-! C06, the gimbal band of `GetRPY` (frames.cpp:252: `fabs(pitch) > PI/2 - epsilon`, with the local `epsilon` 1e-12):
what the angles returned there are worth. -/

namespace KDL
open Real

/-- Entrywise distance of two matrices is at most `e`. -/
def Rot.Within (A B : Rot) (e : ℝ) : Prop :=
  |A.m00 - B.m00| ≤ e ∧ |A.m01 - B.m01| ≤ e ∧ |A.m02 - B.m02| ≤ e ∧
  |A.m10 - B.m10| ≤ e ∧ |A.m11 - B.m11| ≤ e ∧ |A.m12 - B.m12| ≤ e ∧
  |A.m20 - B.m20| ≤ e ∧ |A.m21 - B.m21| ≤ e ∧ |A.m22 - B.m22| ≤ e

private theorem cos_le_band {p : ℝ} (hp : |p| ≤ π / 2) (hb : |p| > π / 2 - 1 / 10 ^ 12) :
    0 ≤ cos p ∧ cos p ≤ 1 / 10 ^ 12 := by
  have h1 := abs_le.mp hp
  refine ⟨cos_nonneg_of_mem_Icc ⟨by linarith, by linarith⟩, ?_⟩
  rw [← cos_abs, ← sin_pi_div_two_sub]
  have : sin (π / 2 - |p|) ≤ π / 2 - |p| := sin_le (by linarith)
  linarith

private theorem band_core (R : Rot) (e cp n cy sy : ℝ) (c2 : R.m10 * R.m21 - R.m11 * R.m20 = R.m02)
    (c5 : R.m20 * R.m01 - R.m21 * R.m00 = R.m12) (hncos : n * cy = R.m11) (hnsin : n * sy = -R.m01)
    (hcy : |cy| ≤ 1) (hsy : |sy| ≤ 1) (b21 : |R.m21| ≤ cp) (b22 : |R.m22| ≤ cp) (b00 : |R.m00| ≤ cp)
    (b10 : |R.m10| ≤ cp) (b20 : |R.m20| ≤ 1) (hn3 : |1 - n| ≤ cp * cp) (hcc : cp * cp ≤ cp) (hc0 : 0 ≤ cp)
    (hc1 : cp ≤ e) :
    |cy * cp - R.m00| ≤ 2 * e ∧ |cy * -R.m20 * 0 - sy * 1 - R.m01| ≤ 2 * e ∧
    |cy * -R.m20 * 1 + sy * 0 - R.m02| ≤ 2 * e ∧ |sy * cp - R.m10| ≤ 2 * e ∧
    |sy * -R.m20 * 0 + cy * 1 - R.m11| ≤ 2 * e ∧ |sy * -R.m20 * 1 - cy * 0 - R.m12| ≤ 2 * e ∧
    |- -R.m20 - R.m20| ≤ 2 * e ∧ |cp * 0 - R.m21| ≤ 2 * e ∧ |cp * 1 - R.m22| ≤ 2 * e := by
  have hmul : ∀ a b x y : ℝ, |a| ≤ x → |b| ≤ y → |a * b| ≤ x * y := fun a b x y ha hb => by
    rw [abs_mul]; exact mul_le_mul ha hb (abs_nonneg b) (le_trans (abs_nonneg a) ha)
  have hcp' : |cp| ≤ cp := le_of_eq (abs_of_nonneg hc0)
  refine ⟨?_, ?_, ?_, ?_, ?_, ?_, ?_, ?_, ?_⟩
  · calc |cy * cp - R.m00| ≤ |cy * cp| + |R.m00| := abs_sub _ _
      _ ≤ 1 * cp + cp := add_le_add (hmul _ _ _ _ hcy hcp') b00
      _ ≤ 2 * e := by linarith
  · calc |cy * -R.m20 * 0 - sy * 1 - R.m01| = |(1 - n) * sy| := by
          rw [← abs_neg]; congr 1; linear_combination hnsin
      _ ≤ cp * cp * 1 := hmul _ _ _ _ hn3 hsy
      _ ≤ 2 * e := by linarith
  · calc |cy * -R.m20 * 1 + sy * 0 - R.m02| = |((1 - n) * cy) * R.m20 + R.m10 * R.m21| := by
          rw [← abs_neg]; congr 1; linear_combination -c2 + R.m20 * hncos
      _ ≤ |((1 - n) * cy) * R.m20| + |R.m10 * R.m21| := abs_add_le _ _
      _ ≤ (cp * cp * 1) * 1 + cp * cp :=
          add_le_add (hmul _ _ _ _ (hmul _ _ _ _ hn3 hcy) b20) (hmul _ _ _ _ b10 b21)
      _ ≤ 2 * e := by linarith
  · calc |sy * cp - R.m10| ≤ |sy * cp| + |R.m10| := abs_sub _ _
      _ ≤ 1 * cp + cp := add_le_add (hmul _ _ _ _ hsy hcp') b10
      _ ≤ 2 * e := by linarith
  · calc |sy * -R.m20 * 0 + cy * 1 - R.m11| = |(1 - n) * cy| := by
          congr 1; linear_combination hncos
      _ ≤ cp * cp * 1 := hmul _ _ _ _ hn3 hcy
      _ ≤ 2 * e := by linarith
  · calc |sy * -R.m20 * 1 - cy * 0 - R.m12| = |-(((1 - n) * sy) * R.m20) + R.m21 * R.m00| := by
          congr 1; linear_combination c5 - R.m20 * hnsin
      _ ≤ |-(((1 - n) * sy) * R.m20)| + |R.m21 * R.m00| := abs_add_le _ _
      _ ≤ (cp * cp * 1) * 1 + cp * cp := by
          rw [abs_neg]
          exact add_le_add (hmul _ _ _ _ (hmul _ _ _ _ hn3 hsy) b20) (hmul _ _ _ _ b21 b00)
      _ ≤ 2 * e := by linarith
  · rw [neg_neg, sub_self, abs_zero]; linarith
  · calc |cp * 0 - R.m21| = |R.m21| := by rw [mul_zero, zero_sub, abs_neg]
      _ ≤ 2 * e := by linarith
  · calc |cp * 1 - R.m22| ≤ |cp * 1| + |R.m22| := abs_sub _ _
      _ ≤ cp + cp := add_le_add (by rw [mul_one]; exact hcp') b22
      _ ≤ 2 * e := by linarith


private theorem one_sub_bound {n c m : ℝ} (h0 : 0 ≤ n) (h : n ^ 2 = 1 - m ^ 2) (hm : m ^ 2 ≤ c ^ 2) :
    |1 - n| ≤ c * c := by
  have h1 : n ≤ 1 := by
    by_contra hcon
    push Not at hcon
    nlinarith [sq_nonneg m]
  rw [abs_of_nonneg (by linarith)]
  nlinarith

private theorem band_inside (R : Rot) (h : R.IsProper)
    (hband : |atan2 (-R.m20) (sqrt (R.m00 ^ 2 + R.m10 ^ 2))| > π / 2 - 1 / 10 ^ 12) :
    (Rot.rpy R.getRPY.roll R.getRPY.pitch R.getRPY.yaw).Within R (2 * (1 / 10 ^ 12)) := by
  obtain ⟨⟨c0, c1, c2⟩, ⟨c3, c4, c5⟩, ⟨c6, c7, c8⟩⟩ := h.cof
  obtain ⟨⟨r0, r1, r2⟩, r01, r02, r12⟩ := h.rows
  obtain ⟨⟨k0, k1, k2⟩, k01, k02, k12⟩ := h.cols
  set cp := sqrt (R.m00 ^ 2 + R.m10 ^ 2) with hcp
  have hcp2 : cp ^ 2 = R.m00 ^ 2 + R.m10 ^ 2 := sq_sqrt (by positivity)
  have hu : cp ^ 2 + (-R.m20) ^ 2 = 1 := by rw [hcp2]; linarith
  have hcosp := cos_atan2_of_unit hu
  have hsinp := sin_atan2_of_unit hu
  have hrange := atan2_abs_le (y := -R.m20) (sqrt_nonneg (R.m00 ^ 2 + R.m10 ^ 2))
  rw [← hcp] at hrange
  obtain ⟨hc0, hc1⟩ := cos_le_band hrange hband
  rw [hcosp] at hc0 hc1
  have hrpy : R.getRPY = ⟨0, atan2 (-R.m20) cp, atan2 (-R.m01) R.m11⟩ := by
    unfold Rot.getRPY
    dsimp only
    rw [← hcp, if_pos hband]
  rw [hrpy]
  dsimp only
  set n := sqrt (R.m11 ^ 2 + (-R.m01) ^ 2) with hn
  have hn2 : n ^ 2 = R.m11 ^ 2 + (-R.m01) ^ 2 := sq_sqrt (by positivity)
  have hncos : n * cos (atan2 (-R.m01) R.m11) = R.m11 := sqrt_mul_cos_atan2 _ _
  have hnsin : n * sin (atan2 (-R.m01) R.m11) = -R.m01 := sqrt_mul_sin_atan2 _ _
  have hcy := abs_cos_le_one (atan2 (-R.m01) R.m11)
  have hsy := abs_sin_le_one (atan2 (-R.m01) R.m11)
  have hn0 : 0 ≤ n := sqrt_nonneg _
  have b21 : |R.m21| ≤ cp := abs_le_of_sq_le_sq (by linarith [sq_nonneg R.m22]) hc0
  have b22 : |R.m22| ≤ cp := abs_le_of_sq_le_sq (by linarith [sq_nonneg R.m21]) hc0
  have b00 : |R.m00| ≤ cp := abs_le_of_sq_le_sq (by linarith [sq_nonneg R.m10]) hc0
  have b10 : |R.m10| ≤ cp := abs_le_of_sq_le_sq (by linarith [sq_nonneg R.m00]) hc0
  have b20 : |R.m20| ≤ 1 := abs_le_of_sq_le_sq (by linarith [sq_nonneg cp]) zero_le_one
  have hn3 : |1 - n| ≤ cp * cp := one_sub_bound (m := R.m21) hn0 (by linarith) (by linarith [sq_nonneg R.m22])
  have hcc : cp * cp ≤ cp := mul_le_of_le_one_left hc0 (hc1.trans (by norm_num))
  have core := band_core R (1 / 10 ^ 12) cp n _ _ c2 c5 hncos hnsin hcy hsy b21 b22 b00 b10 b20 hn3 hcc hc0 hc1
  simp only [Rot.Within, Rot.rpy, hcosp, hsinp, cos_zero, sin_zero]
  exact core

/-- For *every* proper rotation the angles of `GetRPY` rebuild the rotation up to `2e-12` in each entry: exactly outside
the gimbal band (`C06_rpy_roundtrip`), and up to twice the cosine of the pitch inside. -/
theorem C06_rpy_band (R : Rot) (h : R.IsProper) :
    (Rot.rpy R.getRPY.roll R.getRPY.pitch R.getRPY.yaw).Within R (2 / 10 ^ 12) := by
  by_cases hband : |atan2 (-R.m20) (sqrt (R.m00 ^ 2 + R.m10 ^ 2))| ≤ π / 2 - 1 / 10 ^ 12
  · rw [C06_rpy_roundtrip R h hband]
    simp only [Rot.Within, sub_self, abs_zero]
    norm_num
  push Not at hband
  rw [show (2 : ℝ) / 10 ^ 12 = 2 * (1 / 10 ^ 12) by norm_num]
  exact band_inside R h hband

/-- The bound cannot be improved to equality: the proper rotation `RPY(π/2, π/2 - 1e-13, 0)` lies inside the band and is
not the rotation of the angles `GetRPY` returns for it. -/
theorem C06_rpy_band_inexact :
    (Rot.rpy (π / 2) (π / 2 - 1 / 10 ^ 13) 0).IsProper ∧
    (let R := Rot.rpy (π / 2) (π / 2 - 1 / 10 ^ 13) 0
     Rot.rpy R.getRPY.roll R.getRPY.pitch R.getRPY.yaw ≠ R) := by
  refine ⟨C02_rpy _ _ _, ?_⟩
  intro R
  have hpi := two_le_pi
  have hc : 0 < cos (π / 2 - 1 / 10 ^ 13) := cos_pos_of_mem_Ioo ⟨by linarith, by linarith⟩
  have e00 : R.m00 = cos (π / 2 - 1 / 10 ^ 13) := by simp only [R, Rot.rpy, cos_zero, one_mul]
  have e10 : R.m10 = 0 := by simp only [R, Rot.rpy, sin_zero, zero_mul]
  have e20 : R.m20 = -sin (π / 2 - 1 / 10 ^ 13) := rfl
  have e21 : R.m21 = cos (π / 2 - 1 / 10 ^ 13) := by simp only [R, Rot.rpy, sin_pi_div_two, mul_one]
  have hp : atan2 (-R.m20) (sqrt (R.m00 ^ 2 + R.m10 ^ 2)) = π / 2 - 1 / 10 ^ 13 := by
    rw [e00, e10, e20, zero_pow two_ne_zero, add_zero, sqrt_sq hc.le, neg_neg]
    exact atan2_sin_cos ⟨by linarith, by linarith⟩
  have hroll : R.getRPY.roll = 0 := by
    unfold Rot.getRPY
    dsimp only
    rw [hp, if_pos]
    rw [abs_of_pos (by linarith)]
    norm_num
  intro hcon
  have h21 := congrArg Rot.m21 hcon
  rw [e21, hroll] at h21
  simp only [Rot.rpy, sin_zero, mul_zero] at h21
  exact hc.ne h21

/-- The band is not empty of exact cases either: the rotation by a right angle about `y`. -/
example : (Rot.rpy 0 (π / 2) 0).getRPY.roll = 0 := by
  have h : (Rot.rpy 0 (π / 2) 0).m00 = 0 := by simp [Rot.rpy]
  exact (C06_rpy_roundtrip_gimbal _ (C02_rpy _ _ _) h (by simp [Rot.rpy])).2
end KDL
