import Verif.Lemmas.Angles

/-! C07: quaternions. -/

set_option linter.unusedTactic false
set_option linter.unreachableTactic false

namespace KDL
open Real

private theorem quat_core (R : Rot) (h : R.IsProper) :
    let q := R.getQuaternion
    q.x ^ 2 = (1 + R.m00 - R.m11 - R.m22) / 4 ∧ q.y ^ 2 = (1 - R.m00 + R.m11 - R.m22) / 4 ∧
    q.z ^ 2 = (1 - R.m00 - R.m11 + R.m22) / 4 ∧ q.w ^ 2 = (1 + R.m00 + R.m11 + R.m22) / 4 ∧
    q.w * q.x = (R.m21 - R.m12) / 4 ∧ q.w * q.y = (R.m02 - R.m20) / 4 ∧
    q.w * q.z = (R.m10 - R.m01) / 4 ∧ q.x * q.y = (R.m01 + R.m10) / 4 ∧
    q.x * q.z = (R.m02 + R.m20) / 4 ∧ q.y * q.z = (R.m12 + R.m21) / 4 := by
  have g := h.gram
  intro q
  have hq : q = R.getQuaternion := rfl
  unfold Rot.getQuaternion at hq
  dsimp only at hq
  split_ifs at hq with h1 h2 h3
  · have hpos : 0 < R.m00 + R.m11 + R.m22 + 1 := by
      have : (0 : ℝ) < 1 / 10 ^ 12 := by norm_num
      linarith
    have hs := sq_sqrt hpos.le
    have hs0 : 0 < sqrt (R.m00 + R.m11 + R.m22 + 1) := sqrt_pos.mpr hpos
    set s := sqrt (R.m00 + R.m11 + R.m22 + 1)
    have hsum : 1 + R.m00 + R.m11 + R.m22 = s ^ 2 := by rw [hs]; ring
    obtain ⟨g1, g2, g3, _, _, _, g4, g5, g6, _⟩ := g
    rw [hsum] at g1 g2 g3 g4 g5 g6
    rw [hq, hsum]
    dsimp only
    refine ⟨?_, ?_, ?_, ?_, ?_, ?_, ?_, ?_, ?_, ?_⟩ <;> field_simp
    · first | linear_combination g1 | linear_combination 4 * g1
    · first | linear_combination g2 | linear_combination 4 * g2
    · first | linear_combination g3 | linear_combination 4 * g3
    · norm_num <;> ring
    · norm_num <;> ring
    · norm_num <;> ring
    · norm_num <;> ring
    · first | linear_combination g4 | linear_combination 4 * g4
    · first | linear_combination g5 | linear_combination 4 * g5
    · first | linear_combination g6 | linear_combination 4 * g6
  · have hpos : 0 < 1 + R.m00 - R.m11 - R.m22 := by
      have : (1 : ℝ) / 10 ^ 12 < 1 := by norm_num
      have := h2.1; have := h2.2; linarith
    have hs := sq_sqrt hpos.le
    have hs0 : 0 < sqrt (1 + R.m00 - R.m11 - R.m22) := sqrt_pos.mpr hpos
    obtain ⟨g1, _, _, g2, g3, _, _, _, _, g4, g5, g6, _⟩ := g
    set s := sqrt (1 + R.m00 - R.m11 - R.m22)
    rw [← hs] at g1 g2 g3 g4 g5 g6
    rw [hq, ← hs]
    dsimp only
    refine ⟨?_, ?_, ?_, ?_, ?_, ?_, ?_, ?_, ?_, ?_⟩ <;> field_simp
    · norm_num <;> ring
    · first | linear_combination g2 | linear_combination 4 * g2
    · first | linear_combination g3 | linear_combination 4 * g3
    · first | linear_combination g1 | linear_combination 4 * g1
    · norm_num <;> ring
    · first | linear_combination g4 | linear_combination 4 * g4
    · first | linear_combination g5 | linear_combination 4 * g5
    · norm_num <;> ring
    · norm_num <;> ring
    · first | linear_combination g6 | linear_combination 4 * g6
  · have h2' : R.m00 ≤ R.m11 := by
      by_contra hc; push Not at hc; exact h2 ⟨hc, by linarith⟩
    have hpos : 0 < 1 + R.m11 - R.m00 - R.m22 := by
      have : (1 : ℝ) / 10 ^ 12 < 1 := by norm_num
      linarith
    have hs := sq_sqrt hpos.le
    have hs0 : 0 < sqrt (1 + R.m11 - R.m00 - R.m22) := sqrt_pos.mpr hpos
    obtain ⟨_, g1, _, g2, _, g3, _, _, _, _, _, _, g4, g5, g6, _⟩ := g
    set s := sqrt (1 + R.m11 - R.m00 - R.m22)
    rw [show 1 - R.m00 + R.m11 - R.m22 = s ^ 2 by rw [hs]; ring] at g1 g2 g3 g4 g5 g6 ⊢
    rw [hq]
    dsimp only
    refine ⟨?_, ?_, ?_, ?_, ?_, ?_, ?_, ?_, ?_, ?_⟩ <;> field_simp
    · first | linear_combination g2 | linear_combination 4 * g2
    · norm_num <;> ring
    · first | linear_combination g3 | linear_combination 4 * g3
    · first | linear_combination g1 | linear_combination 4 * g1
    · first | linear_combination g4 | linear_combination 4 * g4
    · norm_num <;> ring
    · first | linear_combination g5 | linear_combination 4 * g5
    · norm_num <;> ring
    · first | linear_combination g6 | linear_combination 4 * g6
    · norm_num <;> ring
  · have h2' : R.m00 ≤ R.m22 := by
      by_contra hc; push Not at hc; exact h2 ⟨by linarith, hc⟩
    have hpos : 0 < 1 + R.m22 - R.m00 - R.m11 := by
      have : (1 : ℝ) / 10 ^ 12 < 1 := by norm_num
      linarith
    have hs := sq_sqrt hpos.le
    have hs0 : 0 < sqrt (1 + R.m22 - R.m00 - R.m11) := sqrt_pos.mpr hpos
    obtain ⟨_, _, g1, _, g2, g3, _, _, _, _, _, _, _, _, _, g4, g5, g6⟩ := g
    set s := sqrt (1 + R.m22 - R.m00 - R.m11)
    rw [show 1 - R.m00 - R.m11 + R.m22 = s ^ 2 by rw [hs]; ring] at g1 g2 g3 g4 g5 g6 ⊢
    rw [hq]
    dsimp only
    refine ⟨?_, ?_, ?_, ?_, ?_, ?_, ?_, ?_, ?_, ?_⟩ <;> field_simp
    · first | linear_combination g2 | linear_combination 4 * g2
    · first | linear_combination g3 | linear_combination 4 * g3
    · norm_num <;> ring
    · first | linear_combination g1 | linear_combination 4 * g1
    · first | linear_combination g4 | linear_combination 4 * g4
    · first | linear_combination g5 | linear_combination 4 * g5
    · norm_num <;> ring
    · first | linear_combination g6 | linear_combination 4 * g6
    · norm_num <;> ring
    · norm_num <;> ring

/-- `GetQuaternion` returns a unit quaternion. -/
theorem C07_unit (R : Rot) (h : R.IsProper) :
    let q := R.getQuaternion
    q.x * q.x + q.y * q.y + q.z * q.z + q.w * q.w = 1 := by
  obtain ⟨h1, h2, h3, h4, _⟩ := quat_core R h
  intro q
  linear_combination h1 + h2 + h3 + h4

/-- Round trip through every branch of `GetQuaternion`. -/
theorem C07_roundtrip (R : Rot) (h : R.IsProper) :
    let q := R.getQuaternion
    Rot.quaternion q.x q.y q.z q.w = R := by
  obtain ⟨h1, h2, h3, h4, h5, h6, h7, h8, h9, h10⟩ := quat_core R h
  intro q
  ext <;> simp only [Rot.quaternion]
  · linear_combination h4 + h1 - h2 - h3
  · linear_combination 2 * h8 - 2 * h7
  · linear_combination 2 * h9 + 2 * h6
  · linear_combination 2 * h8 + 2 * h7
  · linear_combination h4 - h1 + h2 - h3
  · linear_combination 2 * h10 - 2 * h5
  · linear_combination 2 * h9 - 2 * h6
  · linear_combination 2 * h10 + 2 * h5
  · linear_combination h4 - h1 - h2 + h3

/-- Opposite quaternions denote the same rotation; the conjugate denotes the inverse. -/
theorem C07_double_cover (x y z w : ℝ) :
    Rot.quaternion (-x) (-y) (-z) (-w) = Rot.quaternion x y z w ∧
    Rot.quaternion (-x) (-y) (-z) w = (Rot.quaternion x y z w).inv := by
  refine ⟨?_, ?_⟩ <;> ext <;> simp [Rot.quaternion] <;> ring

/-- `Quaternion` turns the Hamilton product into composition of rotations. -/
theorem C07_hamilton (x y z w x' y' z' w' : ℝ) :
    Rot.quaternion x y z w * Rot.quaternion x' y' z' w' =
      Rot.quaternion (w * x' + x * w' + y * z' - z * y') (w * y' - x * z' + y * w' + z * x')
        (w * z' + x * y' - y * x' + z * w') (w * w' - x * x' - y * y' - z * z') := by
  ext <;> simp [Rot.quaternion] <;> ring

/-- The rotation extracted and rebuilt from a unit quaternion is the rotation of that quaternion. -/
theorem C07_roundtrip_from_quaternion (x y z w : ℝ) (h : x * x + y * y + z * z + w * w = 1) :
    let q := (Rot.quaternion x y z w).getQuaternion
    Rot.quaternion q.x q.y q.z q.w = Rot.quaternion x y z w :=
  C07_roundtrip _ (Rot.isProper_quaternion x y z w h)

-- all four branches are inhabited by proper rotations
example : (1 : Rot).m00 + (1 : Rot).m11 + (1 : Rot).m22 > 1 / 10 ^ 12 := by norm_num
example : (Rot.rotX π).getQuaternion.x ≠ 0 := by
  norm_num [Rot.getQuaternion, Rot.rotX]
example : (Rot.rotY π).getQuaternion.y ≠ 0 := by
  norm_num [Rot.getQuaternion, Rot.rotY]
example : (Rot.rotZ π).getQuaternion.z ≠ 0 := by
  norm_num [Rot.getQuaternion, Rot.rotZ]

end KDL
