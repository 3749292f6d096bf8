import Verif.Lemmas.Angles

/-! C06: roll-pitch-yaw and Euler angles. -/

namespace KDL
open Real

/-- Outside the gimbal band (pitch within `1e-12` of `±π/2`) the extraction reproduces the rotation exactly. -/
theorem C06_rpy_roundtrip (R : Rot) (h : R.IsProper)
    (hband : |atan2 (-R.m20) (sqrt (R.m00 ^ 2 + R.m10 ^ 2))| ≤ π / 2 - 1 / 10 ^ 12) :
    Rot.rpy R.getRPY.roll R.getRPY.pitch R.getRPY.yaw = R := by
  obtain ⟨⟨c0, c1, c2⟩, ⟨c3, c4, c5⟩, ⟨c6, c7, c8⟩⟩ := h.cof
  obtain ⟨⟨r0, r1, r2⟩, r01, r02, r12⟩ := h.rows
  obtain ⟨⟨k0, k1, k2⟩, k01, k02, k12⟩ := h.cols
  set cp := sqrt (R.m00 ^ 2 + R.m10 ^ 2) with hcp
  have hcp2 : cp ^ 2 = R.m00 ^ 2 + R.m10 ^ 2 := sq_sqrt (by positivity)
  have hu : cp ^ 2 + (-R.m20) ^ 2 = 1 := by rw [hcp2]; linarith
  have hcosp := cos_atan2_of_unit hu
  have hsinp := sin_atan2_of_unit hu
  have hcppos : 0 < cp := by
    rw [← hcosp]
    apply cos_pos_of_mem_Ioo
    have := abs_le.mp hband
    constructor <;> linarith
  have hroll : sqrt (R.m22 ^ 2 + R.m21 ^ 2) = cp := by
    rw [hcp]; congr 1; linarith
  have hcr := sqrt_mul_cos_atan2 R.m21 R.m22
  have hsr := sqrt_mul_sin_atan2 R.m21 R.m22
  rw [hroll] at hcr hsr
  have hcy := sqrt_mul_cos_atan2 R.m10 R.m00
  have hsy := sqrt_mul_sin_atan2 R.m10 R.m00
  rw [← hcp] at hcy hsy
  have hcsr := sin_sq_add_cos_sq (atan2 R.m21 R.m22)
  have hcsy := sin_sq_add_cos_sq (atan2 R.m10 R.m00)
  have hne : cp ≠ 0 := hcppos.ne'
  have hget : R.getRPY = ⟨atan2 R.m21 R.m22, atan2 (-R.m20) cp, atan2 R.m10 R.m00⟩ := by
    simp only [Rot.getRPY, ← hcp, gt_iff_lt, not_lt.mpr hband, if_false]
  rw [hget]
  set cr := cos (atan2 R.m21 R.m22)
  set sr := sin (atan2 R.m21 R.m22)
  set cy := cos (atan2 R.m10 R.m00)
  set sy := sin (atan2 R.m10 R.m00)
  have e1 : cy * R.m01 + sy * R.m11 = -R.m20 * sr := by
    apply mul_left_cancel₀ hne
    linear_combination k01 + R.m01 * hcy + R.m11 * hsy + R.m20 * hsr
  have e2 : cy * R.m11 - sy * R.m01 = cr := by
    apply mul_left_cancel₀ hne
    linear_combination c8 + R.m11 * hcy - R.m01 * hsy - hcr
  have e3 : cy * R.m02 + sy * R.m12 = -R.m20 * cr := by
    apply mul_left_cancel₀ hne
    linear_combination k02 + R.m02 * hcy + R.m12 * hsy + R.m20 * hcr
  have e4 : cy * R.m12 - sy * R.m02 = -sr := by
    apply mul_left_cancel₀ hne
    linear_combination -c7 + R.m12 * hcy - R.m02 * hsy + hsr
  ext <;> simp only [Rot.rpy, hcosp, hsinp]
  · linear_combination hcy
  · linear_combination -cy * e1 + sy * e2 + R.m01 * hcsy
  · linear_combination -cy * e3 + sy * e4 + R.m02 * hcsy
  · linear_combination hsy
  · linear_combination -sy * e1 - cy * e2 + R.m11 * hcsy
  · linear_combination -sy * e3 - cy * e4 + R.m12 * hcsy
  · ring
  · linear_combination hsr
  · linear_combination hcr

/-- At the exact gimbal lock the extraction reproduces the rotation too (with roll `0`). -/
theorem C06_rpy_roundtrip_gimbal (R : Rot) (h : R.IsProper) (h0 : R.m00 = 0) (h1 : R.m10 = 0) :
    Rot.rpy R.getRPY.roll R.getRPY.pitch R.getRPY.yaw = R ∧ R.getRPY.roll = 0 := by
  obtain ⟨⟨c0, c1, c2⟩, ⟨c3, c4, c5⟩, ⟨c6, c7, c8⟩⟩ := h.cof
  obtain ⟨⟨r0, r1, r2⟩, r01, r02, r12⟩ := h.rows
  obtain ⟨⟨k0, k1, k2⟩, k01, k02, k12⟩ := h.cols
  have h22 : R.m22 = 0 := by rw [h0, h1] at c8; linarith
  have h21 : R.m21 = 0 := by rw [h0, h1] at c7; linarith
  have hs : sqrt (R.m00 ^ 2 + R.m10 ^ 2) = 0 := by rw [h0, h1]; simp
  have hu : (0 : ℝ) ^ 2 + (-R.m20) ^ 2 = 1 := by rw [h0, h1] at k0; linarith
  have hcosp := cos_atan2_of_unit hu
  have hsinp := sin_atan2_of_unit hu
  have hv : R.m11 ^ 2 + (-R.m01) ^ 2 = 1 := by rw [h21] at k1; linarith
  have hcy := cos_atan2_of_unit hv
  have hsy := sin_atan2_of_unit hv
  have habs : |atan2 (-R.m20) 0| > π / 2 - 1 / 10 ^ 12 := by
    by_contra hcon
    push Not at hcon
    have hb := abs_le.mp hcon
    have hpos : 0 < cos (atan2 (-R.m20) 0) := by
      apply cos_pos_of_mem_Ioo
      constructor <;> linarith
    rw [hcosp] at hpos
    exact lt_irrefl _ hpos
  have hget : R.getRPY = ⟨0, atan2 (-R.m20) 0, atan2 (-R.m01) R.m11⟩ := by
    simp only [Rot.getRPY, hs, habs, if_true]
  rw [hget]
  refine ⟨?_, rfl⟩
  ext <;> simp only [Rot.rpy, hcosp, hsinp, hcy, hsy, cos_zero, sin_zero]
  · linear_combination -h0
  · ring
  · rw [h0, h1] at k02; rw [h0, h1, h22] at *; linarith
  · linear_combination -h1
  · ring
  · rw [h0, h1, h22] at *; linarith
  · ring
  · linear_combination -h21
  · linear_combination -h22

/-- Documented ranges of the result of `GetRPY`. -/
theorem C06_rpy_ranges (R : Rot) :
    (-π ≤ R.getRPY.roll ∧ R.getRPY.roll ≤ π) ∧ (-π ≤ R.getRPY.yaw ∧ R.getRPY.yaw ≤ π) ∧
    (-(π / 2) ≤ R.getRPY.pitch ∧ R.getRPY.pitch ≤ π / 2) := by
  have hp := abs_le.mp (atan2_abs_le (y := -R.m20) (sqrt_nonneg (R.m00 ^ 2 + R.m10 ^ 2)))
  have r1 := atan2_range R.m21 R.m22
  have r2 := atan2_range R.m10 R.m00
  have r3 := atan2_range (-R.m01) R.m11
  have := pi_pos
  unfold Rot.getRPY
  dsimp only
  split_ifs
  · exact ⟨⟨by linarith, by linarith⟩, ⟨r3.1.le, r3.2⟩, hp⟩
  · exact ⟨⟨r1.1.le, r1.2⟩, ⟨r2.1.le, r2.2⟩, hp⟩

/-- Angles strictly inside the documented range are recovered. -/
theorem C06_rpy_left_inverse (r p y : ℝ) (hr : -π < r ∧ r ≤ π) (hy : -π < y ∧ y ≤ π)
    (hp : |p| ≤ π / 2 - 1 / 10 ^ 12) : (Rot.rpy r p y).getRPY = ⟨r, p, y⟩ := by
  have hb := abs_le.mp hp
  have hpi := two_le_pi
  have hc : 0 < cos p := cos_pos_of_mem_Ioo ⟨by linarith, by linarith⟩
  have hsq : sqrt ((Rot.rpy r p y).m00 ^ 2 + (Rot.rpy r p y).m10 ^ 2) = cos p := by
    rw [show (Rot.rpy r p y).m00 ^ 2 + (Rot.rpy r p y).m10 ^ 2 = cos p ^ 2 by
      simp only [Rot.rpy]; linear_combination (cos p) ^ 2 * (sin_sq_add_cos_sq y), sqrt_sq hc.le]
  have hscale : ∀ a : ℝ, -π < a ∧ a ≤ π → atan2 (cos p * sin a) (cos p * cos a) = a := by
    intro a ha
    have : (⟨cos p * cos a, cos p * sin a⟩ : ℂ) = ((cos p : ℝ) : ℂ) * ⟨cos a, sin a⟩ := by
      apply Complex.ext <;> simp [-Complex.ofReal_cos]
    unfold atan2
    rw [this, Complex.arg_real_mul _ hc]
    exact atan2_sin_cos ha
  have e1 : atan2 (-(Rot.rpy r p y).m20) (cos p) = p := by
    have : -(Rot.rpy r p y).m20 = sin p := by simp [Rot.rpy]
    rw [this]; exact atan2_sin_cos ⟨by linarith, by linarith⟩
  have e2 : atan2 (Rot.rpy r p y).m21 (Rot.rpy r p y).m22 = r := hscale r hr
  have e3 : atan2 (Rot.rpy r p y).m10 (Rot.rpy r p y).m00 = y := by
    have := hscale y hy
    simpa [Rot.rpy, mul_comm] using this
  simp only [Rot.getRPY, hsq, e1, e2, e3, gt_iff_lt, not_lt.mpr hp, if_false]

/-- The alternative angle triple named in the documentation denotes the same rotation. -/
theorem C06_rpy_alternatives (r p y : ℝ) :
    Rot.rpy (r + π) (π - p) (y + π) = Rot.rpy r p y ∧
    Rot.rpy (r - π) (π - p) (y - π) = Rot.rpy r p y ∧
    Rot.rpy (r + 2 * π) p y = Rot.rpy r p y ∧
    Rot.rpy r (p + 2 * π) y = Rot.rpy r p y ∧ Rot.rpy r p (y + 2 * π) = Rot.rpy r p y := by
  refine ⟨?_, ?_, ?_, ?_, ?_⟩ <;> simp [Rot.rpy]
theorem C06_eulerZYX_is_rpy (a b c : ℝ) : Rot.eulerZYX a b c = Rot.rpy c b a := rfl
theorem C06_eulerZYZ_alternatives (a b c : ℝ) :
    Rot.eulerZYZ (a + π) (-b) (c + π) = Rot.eulerZYZ a b c ∧
    Rot.eulerZYZ (a - π) (-b) (c - π) = Rot.eulerZYZ a b c := by
  refine ⟨?_, ?_⟩ <;> simp [Rot.eulerZYZ]

/-- ZYZ round trip outside the band `|R(2,2)| > 1 - 1e-12`. -/
theorem C06_zyz_roundtrip (R : Rot) (h : R.IsProper) (hband : |R.m22| ≤ 1 - 1 / 10 ^ 12) :
    Rot.eulerZYZ R.getEulerZYZ.alpha R.getEulerZYZ.beta R.getEulerZYZ.gamma = R := by
  obtain ⟨⟨c0, c1, c2⟩, ⟨c3, c4, c5⟩, ⟨c6, c7, c8⟩⟩ := h.cof
  obtain ⟨⟨r0, r1, r2⟩, r01, r02, r12⟩ := h.rows
  obtain ⟨⟨k0, k1, k2⟩, k01, k02, k12⟩ := h.cols
  set sb := sqrt (R.m20 ^ 2 + R.m21 ^ 2) with hsb
  have hsb2 : sb ^ 2 = R.m20 ^ 2 + R.m21 ^ 2 := sq_sqrt (by positivity)
  have hb := abs_le.mp hband
  have hne : sb ≠ 0 := by
    intro h0
    rw [h0] at hsb2
    have : R.m22 ^ 2 = 1 := by linarith
    nlinarith
  have hu : R.m22 ^ 2 + sb ^ 2 = 1 := by rw [hsb2]; linarith
  have hcosb := cos_atan2_of_unit hu
  have hsinb := sin_atan2_of_unit hu
  have hca := sqrt_mul_cos_atan2 R.m12 R.m02
  have hsa := sqrt_mul_sin_atan2 R.m12 R.m02
  rw [show R.m02 ^ 2 + R.m12 ^ 2 = R.m20 ^ 2 + R.m21 ^ 2 by linarith, ← hsb] at hca hsa
  have hcg := sqrt_mul_cos_atan2 R.m21 (-R.m20)
  have hsg := sqrt_mul_sin_atan2 R.m21 (-R.m20)
  rw [show (-R.m20) ^ 2 + R.m21 ^ 2 = R.m20 ^ 2 + R.m21 ^ 2 by ring, ← hsb] at hcg hsg
  have hcsa := sin_sq_add_cos_sq (atan2 R.m12 R.m02)
  have hget : R.getEulerZYZ = ⟨atan2 R.m12 R.m02, atan2 sb R.m22, atan2 R.m21 (-R.m20)⟩ := by
    simp only [Rot.getEulerZYZ, ← hsb, gt_iff_lt, not_lt.mpr hband, if_false]
  rw [hget]
  set ca := cos (atan2 R.m12 R.m02)
  set sa := sin (atan2 R.m12 R.m02)
  set cg := cos (atan2 R.m21 (-R.m20))
  set sg := sin (atan2 R.m21 (-R.m20))
  have e1 : ca * R.m00 + sa * R.m10 = R.m22 * cg := by
    apply mul_left_cancel₀ hne
    linear_combination k02 + R.m00 * hca + R.m10 * hsa - R.m22 * hcg
  have e2 : ca * R.m10 - sa * R.m00 = sg := by
    apply mul_left_cancel₀ hne
    linear_combination c7 + R.m10 * hca - R.m00 * hsa - hsg
  have e3 : ca * R.m01 + sa * R.m11 = -(R.m22 * sg) := by
    apply mul_left_cancel₀ hne
    linear_combination k12 + R.m01 * hca + R.m11 * hsa + R.m22 * hsg
  have e4 : ca * R.m11 - sa * R.m01 = cg := by
    apply mul_left_cancel₀ hne
    linear_combination -c6 + R.m11 * hca - R.m01 * hsa - hcg
  ext <;> simp only [Rot.eulerZYZ, hcosb, hsinb]
  · linear_combination -ca * e1 + sa * e2 + R.m00 * hcsa
  · linear_combination -ca * e3 + sa * e4 + R.m01 * hcsa
  · linear_combination hca
  · linear_combination -sa * e1 - ca * e2 + R.m10 * hcsa
  · linear_combination -sa * e3 - ca * e4 + R.m11 * hcsa
  · linear_combination hsa
  · linear_combination -hcg
  · linear_combination hsg

/-- ZYZ round trip at the exact singularities `R(2,2) = ±1`. -/
theorem C06_zyz_roundtrip_singular (R : Rot) (h : R.IsProper) (hs : R.m22 = 1 ∨ R.m22 = -1) :
    Rot.eulerZYZ R.getEulerZYZ.alpha R.getEulerZYZ.beta R.getEulerZYZ.gamma = R ∧
      R.getEulerZYZ.gamma = 0 := by
  obtain ⟨⟨c0, c1, c2⟩, ⟨c3, c4, c5⟩, ⟨c6, c7, c8⟩⟩ := h.cof
  obtain ⟨⟨r0, r1, r2⟩, r01, r02, r12⟩ := h.rows
  obtain ⟨⟨k0, k1, k2⟩, k01, k02, k12⟩ := h.cols
  have hsq : R.m22 ^ 2 = 1 := by rcases hs with hs | hs <;> rw [hs] <;> norm_num
  have z : ∀ a b : ℝ, a ^ 2 + b ^ 2 = 0 → a = 0 ∧ b = 0 := fun a b hab => by
    constructor <;> rw [← sq_eq_zero_iff] <;> linarith [sq_nonneg a, sq_nonneg b]
  obtain ⟨h20, h21⟩ := z R.m20 R.m21 (by linarith)
  obtain ⟨h02, h12⟩ := z R.m02 R.m12 (by linarith)
  have hk : R.m00 ^ 2 + R.m10 ^ 2 = 1 := by rw [h20] at k0; linarith
  rcases hs with hs | hs
  · have hget : R.getEulerZYZ = ⟨atan2 R.m10 R.m00, 0, 0⟩ := by
      simp [Rot.getEulerZYZ, hs]
    rw [hget]
    refine ⟨?_, rfl⟩
    have hc := cos_atan2_of_unit hk
    have hsn := sin_atan2_of_unit hk
    rw [hs, h20, h12] at c1
    rw [hs, h20, h02] at c4
    ext <;> simp only [Rot.eulerZYZ, hc, hsn, cos_zero, sin_zero] <;> linarith
  · have hget : R.getEulerZYZ = ⟨atan2 (-R.m10) (-R.m00), π, 0⟩ := by
      simp [Rot.getEulerZYZ, hs]
    rw [hget]
    refine ⟨?_, rfl⟩
    have hk' : (-R.m00) ^ 2 + (-R.m10) ^ 2 = 1 := by linarith
    have hc := cos_atan2_of_unit hk'
    have hsn := sin_atan2_of_unit hk'
    rw [hs, h20, h12] at c1
    rw [hs, h20, h02] at c4
    ext <;> simp only [Rot.eulerZYZ, hc, hsn, cos_zero, sin_zero, cos_pi, sin_pi] <;> linarith

/-- Ranges of `GetEulerZYZ`. -/
theorem C06_zyz_ranges (R : Rot) :
    (-π ≤ R.getEulerZYZ.alpha ∧ R.getEulerZYZ.alpha ≤ π) ∧
    (0 ≤ R.getEulerZYZ.beta ∧ R.getEulerZYZ.beta ≤ π) ∧
    (-π ≤ R.getEulerZYZ.gamma ∧ R.getEulerZYZ.gamma ≤ π) := by
  have hpi := pi_pos
  have r1 := atan2_range R.m10 R.m00
  have r2 := atan2_range (-R.m10) (-R.m00)
  have r3 := atan2_range R.m12 R.m02
  have r4 := atan2_range R.m21 (-R.m20)
  have r5 := atan2_range (sqrt (R.m20 ^ 2 + R.m21 ^ 2)) R.m22
  have r6 := atan2_nonneg (x := R.m22) (sqrt_nonneg (R.m20 ^ 2 + R.m21 ^ 2))
  unfold Rot.getEulerZYZ
  split_ifs
  · exact ⟨⟨r1.1.le, r1.2⟩, ⟨le_rfl, hpi.le⟩, ⟨by simp; exact hpi.le, hpi.le⟩⟩
  · exact ⟨⟨r2.1.le, r2.2⟩, ⟨hpi.le, le_rfl⟩, ⟨by simp; exact hpi.le, hpi.le⟩⟩
  · exact ⟨⟨r3.1.le, r3.2⟩, ⟨r6, r5.2⟩, ⟨r4.1.le, r4.2⟩⟩

-- non-vacuity: the identity satisfies both band hypotheses' complementary cases
example : |(Rot.rotX (π / 2)).m22| ≤ 1 - 1 / 10 ^ 12 := by simp [Rot.rotX]; norm_num
example : (Rot.rpy (1 / 2) 0 (1 / 2)).getRPY = ⟨1 / 2, 0, 1 / 2⟩ := by
  have := two_le_pi
  apply C06_rpy_left_inverse
  · constructor <;> linarith
  · constructor <;> linarith
  · rw [abs_zero]; linarith

end KDL
