import Verif.Lemmas.Frames

/-! Helper lemmas on the rotation constructors and on `Norm`. -/

namespace KDL
open Real

theorem epsilon_pos : 0 < epsilon := by norm_num [epsilon]

namespace Rot

theorem isProper_rotX (a : ℝ) : (rotX a).IsProper := by
  have h := sin_sq_add_cos_sq a
  refine ⟨?_, ?_⟩
  · ext <;> simp [rotX] <;> first | ring1 | linear_combination h
  · simp [rotX, det]; linear_combination h

theorem isProper_rotY (a : ℝ) : (rotY a).IsProper := by
  have h := sin_sq_add_cos_sq a
  refine ⟨?_, ?_⟩
  · ext <;> simp [rotY] <;> first | ring1 | linear_combination h
  · simp [rotY, det]; linear_combination h

theorem isProper_rotZ (a : ℝ) : (rotZ a).IsProper := by
  have h := sin_sq_add_cos_sq a
  refine ⟨?_, ?_⟩
  · ext <;> simp [rotZ] <;> first | ring1 | linear_combination h
  · simp [rotZ, det]; linear_combination h

theorem rpy_eq (r p y : ℝ) : rpy r p y = rotZ y * rotY p * rotX r := by
  ext <;> simp [rpy, rotX, rotY, rotZ] <;> ring

theorem eulerZYZ_eq (a b g : ℝ) : eulerZYZ a b g = rotZ a * rotY b * rotZ g := by
  ext <;> simp [eulerZYZ, rotY, rotZ] <;> ring

theorem isProper_rpy (r p y : ℝ) : (rpy r p y).IsProper := by
  rw [rpy_eq]; exact ((isProper_rotZ y).mul (isProper_rotY p)).mul (isProper_rotX r)

theorem isProper_eulerZYZ (a b g : ℝ) : (eulerZYZ a b g).IsProper := by
  rw [eulerZYZ_eq]; exact ((isProper_rotZ a).mul (isProper_rotY b)).mul (isProper_rotZ g)

/-- Rodrigues' formula for the action. -/
theorem rot2_app (u : Vec) (a : ℝ) (v : Vec) :
    rot2 u a * v = cos a • v + sin a • (u * v) + ((1 - cos a) * u.dot v) • u := by
  ext <;> simp [rot2, Vec.dot] <;> ring

theorem isProper_rot2 (u : Vec) (hu : u.dot u = 1) (a : ℝ) : (rot2 u a).IsProper := by
  have h := sin_sq_add_cos_sq a
  simp only [Vec.dot] at hu
  refine ⟨?_, ?_⟩
  · ext <;> simp only [rot2, mul_m00, mul_m01, mul_m02, mul_m10, mul_m11, mul_m12, mul_m20, mul_m21,
      mul_m22, inv_m00, inv_m01, inv_m02, inv_m10, inv_m11, inv_m12, inv_m20, inv_m21, inv_m22,
      one_m00, one_m01, one_m02, one_m10, one_m11, one_m12, one_m20, one_m21, one_m22]
    · linear_combination (u.y ^ 2 + u.z ^ 2) * h + (1 - cos a ^ 2 + (1 - cos a) ^ 2 * u.x ^ 2) * hu
    · linear_combination (-u.x * u.y) * h + ((1 - cos a) ^ 2 * u.x * u.y) * hu
    · linear_combination (-u.x * u.z) * h + ((1 - cos a) ^ 2 * u.x * u.z) * hu
    · linear_combination (-u.x * u.y) * h + ((1 - cos a) ^ 2 * u.x * u.y) * hu
    · linear_combination (u.x ^ 2 + u.z ^ 2) * h + (1 - cos a ^ 2 + (1 - cos a) ^ 2 * u.y ^ 2) * hu
    · linear_combination (-u.y * u.z) * h + ((1 - cos a) ^ 2 * u.y * u.z) * hu
    · linear_combination (-u.x * u.z) * h + ((1 - cos a) ^ 2 * u.x * u.z) * hu
    · linear_combination (-u.y * u.z) * h + ((1 - cos a) ^ 2 * u.y * u.z) * hu
    · linear_combination (u.x ^ 2 + u.y ^ 2) * h + (1 - cos a ^ 2 + (1 - cos a) ^ 2 * u.z ^ 2) * hu
  · simp only [rot2, det]
    linear_combination h + ((1 - cos a) * (cos a ^ 2 + sin a ^ 2 *
      (u.x * u.x + u.y * u.y + u.z * u.z)) + sin a ^ 2) * hu

theorem isProper_quaternion (x y z w : ℝ) (h : x * x + y * y + z * z + w * w = 1) :
    (quaternion x y z w).IsProper := by
  refine ⟨?_, ?_⟩
  · ext <;> simp [quaternion]
    · linear_combination (x * x + y * y + z * z + w * w + 1) * h
    · ring
    · ring
    · ring
    · linear_combination (x * x + y * y + z * z + w * w + 1) * h
    · ring
    · ring
    · ring
    · linear_combination (x * x + y * y + z * z + w * w + 1) * h
  · simp only [quaternion, det]
    linear_combination ((x * x + y * y + z * z + w * w) ^ 2 + (x * x + y * y + z * z + w * w) + 1) * h

end Rot

namespace Vec

theorem abs_mul_sqrt (a b c : ℝ) (ha : a ≠ 0) :
    |a| * sqrt (1 + (b / a) ^ 2 + (c / a) ^ 2) = sqrt (a ^ 2 + b ^ 2 + c ^ 2) := by
  rw [← sqrt_sq (abs_nonneg a), ← sqrt_mul (sq_nonneg _), sq_abs]
  congr 1
  field_simp

/-- Euclidean length (specification). -/
noncomputable def len (v : Vec) : ℝ := sqrt (v.x ^ 2 + v.y ^ 2 + v.z ^ 2)

theorem len_sq (v : Vec) : v.len ^ 2 = v.dot v := by
  rw [len, sq_sqrt (by positivity), dot]; ring

theorem len_nonneg (v : Vec) : 0 ≤ v.len := sqrt_nonneg _

theorem len_eq_sqrt_dot (v : Vec) : v.len = sqrt (v.dot v) := by
  rw [len, dot]; congr 1; ring

/-- `Norm` is the Euclidean length except for the threshold case. -/
theorem norm_eq (v : Vec) (eps : ℝ) (heps : 0 < eps) :
    v.norm eps = if |v.x| ≥ |v.y| ∧ |v.x| ≥ |v.z| ∧ |v.x| < eps then 0 else v.len := by
  unfold norm
  by_cases h1 : |v.x| ≥ |v.y|
  · by_cases h2 : |v.x| ≥ |v.z|
    · by_cases h3 : |v.x| < eps
      · simp [h1, h2, h3]
      · have hx : v.x ≠ 0 := by
          intro h; rw [h, abs_zero] at h3; exact h3 heps
        simp only [h1, h2, h3, if_true, if_false, and_false]
        rw [abs_mul_sqrt _ _ _ hx, len]
    · have hz : v.z ≠ 0 := by
        intro h; rw [h, abs_zero] at h2; exact h2 (abs_nonneg _)
      simp only [h1, h2, if_true, if_false, and_false, false_and]
      rw [abs_mul_sqrt _ _ _ hz, len]; congr 1; ring
  · by_cases h2 : |v.y| > |v.z|
    · have hy : v.y ≠ 0 := by
        intro h; rw [h, abs_zero] at h1; exact h1 (abs_nonneg _)
      simp only [h1, h2, if_true, if_false, false_and]
      rw [abs_mul_sqrt _ _ _ hy, len]; congr 1; ring
    · have hz : v.z ≠ 0 := by
        intro h; rw [h, abs_zero] at h2
        push Not at h1 h2
        have := abs_nonneg v.x
        linarith
      simp only [h1, h2, if_false, false_and]
      rw [abs_mul_sqrt _ _ _ hz, len]; congr 1; ring

theorem norm_le_len (v : Vec) (eps : ℝ) (h : 0 < eps) : v.norm eps ≤ v.len := by
  rw [norm_eq v eps h]; split_ifs
  · exact len_nonneg v
  · exact le_rfl

theorem norm_nonneg (v : Vec) (eps : ℝ) (h : 0 < eps) : 0 ≤ v.norm eps := by
  rw [norm_eq v eps h]; split_ifs
  · exact le_rfl
  · exact len_nonneg v

theorem len_div (v : Vec) (c : ℝ) (hc : 0 < c) : (v / c).len = v.len / c := by
  simp only [len, div_x, div_y, div_z]
  rw [show (v.x / c) ^ 2 + (v.y / c) ^ 2 + (v.z / c) ^ 2 = (v.x ^ 2 + v.y ^ 2 + v.z ^ 2) / c ^ 2 by
    field_simp, sqrt_div (by positivity), sqrt_sq hc.le]

/-- The vector left by `Normalize` always has unit length. -/
theorem normalize_dot (v : Vec) (eps : ℝ) (h : 0 < eps) :
    (v.normalize eps).1.dot (v.normalize eps).1 = 1 := by
  unfold normalize
  by_cases hn : v.norm < eps
  · simp [hn, dot]
  · simp only [hn, if_false]
    have hpos : 0 < v.norm := lt_of_lt_of_le h (not_lt.mp hn)
    have he : v.norm = v.len := by
      have := norm_eq v epsilon epsilon_pos
      split_ifs at this with hc
      · rw [this] at hpos; exact absurd hpos (lt_irrefl _)
      · exact this
    rw [← len_sq, he, len_div _ _ (he ▸ hpos), div_self (ne_of_gt (he ▸ hpos)), one_pow]

end Vec

namespace Rot

theorem isProper_rot (axis : Vec) (a : ℝ) : (rot axis a).IsProper :=
  isProper_rot2 _ (Vec.normalize_dot axis _ epsilon_pos) a

theorem ofRotVec_eq (axis : Vec) :
    ofRotVec axis = rot2 (axis.normalize (1 / 10 ^ 10)).1 (axis.normalize (1 / 10 ^ 10)).2 := by
  ext <;> simp [ofRotVec, rot2] <;> ring

theorem isProper_ofRotVec (axis : Vec) : (ofRotVec axis).IsProper := by
  rw [ofRotVec_eq]
  exact isProper_rot2 _ (Vec.normalize_dot axis _ (by norm_num)) _

/-! one-parameter group -/

theorem rot2_zero (u : Vec) : rot2 u 0 = 1 := by ext <;> simp [rot2]

theorem rot2_neg (u : Vec) (a : ℝ) : rot2 u (-a) = (rot2 u a).inv := by
  ext <;> simp [rot2]

theorem rot2_mul (u : Vec) (hu : u.dot u = 1) (a b : ℝ) : rot2 u a * rot2 u b = rot2 u (a + b) := by
  simp only [Vec.dot] at hu
  have hc := cos_add a b
  have hs := sin_add a b
  ext <;> simp only [rot2, mul_m00, mul_m01, mul_m02, mul_m10, mul_m11, mul_m12, mul_m20, mul_m21,
      mul_m22, hc, hs]
  · linear_combination ((1 - cos a) * (1 - cos b) * u.x * u.x - sin a * sin b) * hu
  · linear_combination ((1 - cos a) * (1 - cos b) * u.x * u.y) * hu
  · linear_combination ((1 - cos a) * (1 - cos b) * u.x * u.z) * hu
  · linear_combination ((1 - cos a) * (1 - cos b) * u.x * u.y) * hu
  · linear_combination ((1 - cos a) * (1 - cos b) * u.y * u.y - sin a * sin b) * hu
  · linear_combination ((1 - cos a) * (1 - cos b) * u.y * u.z) * hu
  · linear_combination ((1 - cos a) * (1 - cos b) * u.x * u.z) * hu
  · linear_combination ((1 - cos a) * (1 - cos b) * u.y * u.z) * hu
  · linear_combination ((1 - cos a) * (1 - cos b) * u.z * u.z - sin a * sin b) * hu

theorem rot2_axis (u : Vec) (hu : u.dot u = 1) (a : ℝ) : rot2 u a * u = u := by
  rw [rot2_app, hu]; simp only [Vec.cross_self, smul_zero, add_zero, mul_one]
  rw [← add_smul]; simp

/-- Two matrices that act equally are equal. -/
theorem ext_app {R S : Rot} (h : ∀ v : Vec, R * v = S * v) : R = S := by
  have h1 := h ⟨1, 0, 0⟩
  have h2 := h ⟨0, 1, 0⟩
  have h3 := h ⟨0, 0, 1⟩
  rw [Vec.ext_iff] at h1 h2 h3
  simp at h1 h2 h3
  obtain ⟨a, b, c⟩ := h1
  obtain ⟨d, e, f⟩ := h2
  obtain ⟨g, i, j⟩ := h3
  ext <;> assumption

theorem rot2_conj (R : Rot) (h : R.IsProper) (u : Vec) (a : ℝ) :
    R * rot2 u a * R.inv = rot2 (R * u) a := by
  apply ext_app; intro v
  simp only [mul_app, rot2_app, app_add, app_smul, dot_app]
  rw [← h.cross u, h.app_inv_app]

theorem rotX_eq (a : ℝ) : rotX a = rot2 ⟨1, 0, 0⟩ a := by ext <;> simp [rotX, rot2]
theorem rotY_eq (a : ℝ) : rotY a = rot2 ⟨0, 1, 0⟩ a := by ext <;> simp [rotY, rot2]
theorem rotZ_eq (a : ℝ) : rotZ a = rot2 ⟨0, 0, 1⟩ a := by ext <;> simp [rotZ, rot2]

end Rot
end KDL
