import Verif.Props.PathCircle

/-! Geometry of a rounded corner: two unit directions `u`, `w` and the circle tangent to both. -/

noncomputable section
namespace KDL
open Real

/-- `d = r / tan((π-α)/2)` satisfies `d sin α = r (1 - cos α)`. -/
theorem corner_dist (r alpha : ℝ) (h0 : 0 < alpha) (h1 : alpha < π) :
    r / tan ((π - alpha) / 2) * sin alpha = r * (1 - cos alpha) := by
  have hc : cos (alpha / 2) ≠ 0 := (cos_pos_of_mem_Ioo ⟨by linarith, by linarith⟩).ne'
  have hs : sin (alpha / 2) ≠ 0 := (sin_pos_of_pos_of_lt_pi (by linarith) (by linarith)).ne'
  have e1 : (π - alpha) / 2 = π / 2 - alpha / 2 := by ring
  have e2 : sin alpha = 2 * sin (alpha / 2) * cos (alpha / 2) := by rw [← sin_two_mul]; congr 1; ring
  have e3 : cos alpha = 1 - 2 * sin (alpha / 2) ^ 2 := by
    have := cos_two_mul (alpha / 2)
    rw [show 2 * (alpha / 2) = alpha by ring] at this
    rw [this, cos_sq']; ring
  rw [e1, tan_pi_div_two_sub, e2, e3, tan_eq_sin_div_cos]
  field_simp
  ring

section
variable (u w : Vec) (c s : ℝ) (hu : u.dot u = 1) (hw : w.dot w = 1) (hc : u.dot w = c) (hs : s ^ 2 = 1 - c ^ 2) (h0 : 0 < s)
include hu hw hc hs h0

/-- `t`, the outward normal at the first tangent point, is a unit vector orthogonal to `u`. -/
theorem corner_t : ((1 / s) • (c • u - w)).dot ((1 / s) • (c • u - w)) = 1 ∧ ((1 / s) • (c • u - w)).dot u = 0 := by
  simp only [Vec.dot] at hu hw hc
  have hs' := h0.ne'
  constructor
  · simp [Vec.dot]
    field_simp
    rw [hs]
    linear_combination c ^ 2 * hu + hw - 2 * c * hc
  · simp [Vec.dot]
    field_simp
    linear_combination c * hu - hc

/-- second tangent normal -/
theorem corner_t' : ((1 / s) • (u - c • w)).dot ((1 / s) • (u - c • w)) = 1 ∧ ((1 / s) • (u - c • w)).dot w = 0 := by
  simp only [Vec.dot] at hu hw hc
  have hs' := h0.ne'
  constructor
  · simp [Vec.dot]
    field_simp
    rw [hs]
    linear_combination c ^ 2 * hw + hu - 2 * c * hc
  · simp [Vec.dot]
    field_simp
    linear_combination hc - c * hw

theorem corner_z : ((1 / s) • (c • u - w)) * ((1 / s) • (u - c • w)) = u * w ∧ (u * w).dot (u * w) = s ^ 2 := by
  have hs' := h0.ne'
  constructor
  · have h1 : (c • u - w) * (u - c • w) = (1 - c ^ 2) • (u * w) := by ext <;> simp <;> ring
    rw [Vec.smul_cross, Vec.cross_smul, h1, ← hs, smul_smul, smul_smul]
    rw [show 1 / s * (1 / s) * s ^ 2 = 1 by field_simp, one_smul]
  · rw [hs]
    simp only [Vec.dot] at hu hw hc
    simp [Vec.dot]
    rw [← hc]
    linear_combination (w.x * w.x + w.y * w.y + w.z * w.z) * hu + hw

theorem corner_frame : ((1 / s) • (u * w)) * ((1 / s) • (c • u - w)) = u := by
  have hs' := h0.ne'
  have h1 : (u * w) * (c • u - w) = s ^ 2 • u := by
    rw [hs]
    simp only [Vec.dot] at hu hw hc
    ext <;> simp
    · linear_combination c * w.x * hu - c * u.x * hc - w.x * hc + u.x * hw
    · linear_combination c * w.y * hu - c * u.y * hc - w.y * hc + u.y * hw
    · linear_combination c * w.z * hu - c * u.z * hc - w.z * hc + u.z * hw
  rw [Vec.smul_cross, Vec.cross_smul, h1, smul_smul, smul_smul]
  rw [show 1 / s * (1 / s) * s ^ 2 = 1 by field_simp, one_smul]

/-- Turning the first normal by the corner angle gives the second, and turning `u` gives `w`. -/
theorem corner_turn (alpha : ℝ) (ha : cos alpha = c) (hb : sin alpha = s) :
    Rot.rot2 ((1 / s) • (u * w)) alpha * ((1 / s) • (c • u - w)) = (1 / s) • (u - c • w) ∧
      Rot.rot2 ((1 / s) • (u * w)) alpha * u = w := by
  have hs' := h0.ne'
  have hf := corner_frame u w c s hu hw hc hs h0
  have hz := (corner_z u w c s hu hw hc hs h0).2
  have z1 : ((1 / s) • (u * w)).dot u = 0 := by rw [Vec.smul_dot]; simp [Vec.dot]; right; ring
  have z2 : ((1 / s) • (u * w)).dot ((1 / s) • (c • u - w)) = 0 := by
    rw [Vec.smul_dot, Vec.dot_smul]; simp [Vec.dot, hs']; ring
  have z3 : ((1 / s) • (u * w)) * u = (1 / s) • (w - c • u) := by
    rw [Vec.smul_cross]
    congr 1
    simp only [Vec.dot] at hu hw hc
    ext <;> simp
    · linear_combination w.x * hu - u.x * hc
    · linear_combination w.y * hu - u.y * hc
    · linear_combination w.z * hu - u.z * hc
  constructor
  · rw [Rot.rot2_app, z2, hf, ha, hb]
    ext <;> simp <;> field_simp <;> rw [hs] <;> ring
  · rw [Rot.rot2_app, z1, z3, ha, hb]
    ext <;> simp <;> field_simp <;> ring

end

end KDL
