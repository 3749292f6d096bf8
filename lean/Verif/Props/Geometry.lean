import Mathlib.Analysis.Real.Pi.Bounds
import Verif.Model.Geometry
import Verif.Lemmas.Calculus
import Verif.Lemmas.Path
import Verif.Props.AxisAngle
import Verif.Props.EulerBand

/-! C91: the columns of a rotation, and what the program `examples/geometry.cpp` computes. -/

namespace KDL
open Real

/-! ## Reading and writing one column -/

/-- The setter replaces exactly the column it names, and the getters read the columns back: a rotation is determined by
its three columns. -/
theorem C91_columns (R : Rot) (X : Vec) :
    ((R.setUnitX X).unitX = X ∧ (R.setUnitX X).unitY = R.unitY ∧ (R.setUnitX X).unitZ = R.unitZ) ∧
    ((R.setUnitY X).unitX = R.unitX ∧ (R.setUnitY X).unitY = X ∧ (R.setUnitY X).unitZ = R.unitZ) ∧
    ((R.setUnitZ X).unitX = R.unitX ∧ (R.setUnitZ X).unitY = R.unitY ∧ (R.setUnitZ X).unitZ = X) ∧
    (R.unitX = R * (⟨1, 0, 0⟩ : Vec) ∧ R.unitY = R * (⟨0, 1, 0⟩ : Vec) ∧ R.unitZ = R * (⟨0, 0, 1⟩ : Vec)) ∧
    Rot.ofCols R.unitX R.unitY R.unitZ = R := by
  refine ⟨⟨rfl, rfl, rfl⟩, ⟨rfl, rfl, rfl⟩, ⟨rfl, rfl, rfl⟩, ⟨?_, ?_, ?_⟩, rfl⟩ <;>
    ext <;> simp [Rot.unitX, Rot.unitY, Rot.unitZ]

/-- Two columns of a rotation determine the third. -/
theorem C91_cross (R : Rot) (h : R.IsProper) :
    R.unitX * R.unitY = R.unitZ ∧ R.unitY * R.unitZ = R.unitX ∧ R.unitZ * R.unitX = R.unitY := by
  obtain ⟨⟨c0, c1, c2⟩, ⟨c3, c4, c5⟩, ⟨c6, c7, c8⟩⟩ := h.cof
  refine ⟨?_, ?_, ?_⟩ <;> ext <;> simp [Rot.unitX, Rot.unitY, Rot.unitZ] <;> linarith

/-- So no column of a rotation can be exchanged on its own: whatever the new column is, the matrix is a rotation only if
nothing was changed. -/
theorem C91_proper (R : Rot) (h : R.IsProper) (X : Vec) :
    ((R.setUnitX X).IsProper ↔ X = R.unitX) ∧ ((R.setUnitY X).IsProper ↔ X = R.unitY) ∧
    ((R.setUnitZ X).IsProper ↔ X = R.unitZ) := by
  obtain ⟨a, b, c⟩ := C91_cross R h
  refine ⟨⟨fun h' => ?_, ?_⟩, ⟨fun h' => ?_, ?_⟩, ⟨fun h' => ?_, ?_⟩⟩
  · have := (C91_cross _ h').2.1; exact this.symm.trans b
  · rintro rfl; exact h
  · have := (C91_cross _ h').2.2; exact this.symm.trans c
  · rintro rfl; exact h
  · have := (C91_cross _ h').1; exact this.symm.trans a
  · rintro rfl; exact h

/-- The matrix made of three columns is a rotation exactly when the first two are orthonormal and the third is their
vector product. -/
theorem C91_ofCols (x y z : Vec) :
    (Rot.ofCols x y z).IsProper ↔ x.dot x = 1 ∧ y.dot y = 1 ∧ x.dot y = 0 ∧ z = x * y := by
  constructor
  · intro h
    obtain ⟨⟨k0, k1, _⟩, k01, _, _⟩ := h.cols
    refine ⟨?_, ?_, ?_, (C91_cross _ h).1.symm⟩
    · simp only [Rot.ofCols, Vec.dot] at *; linarith
    · simp only [Rot.ofCols, Vec.dot] at *; linarith
    · simp only [Rot.ofCols, Vec.dot] at *; linarith
  · rintro ⟨hx, hy, hxy, rfl⟩
    have hp : (Rot.ofCols x y (x * y)).inv.IsProper := by
      simp only [Vec.dot] at hx hy hxy
      have hzz : (x.y * y.z - x.z * y.y) ^ 2 + (x.z * y.x - x.x * y.z) ^ 2 + (x.x * y.y - x.y * y.x) ^ 2 = 1 := by
        linear_combination (y.x * y.x + y.y * y.y + y.z * y.z) * hx + hy - (y.x * x.x + y.y * x.y + y.z * x.z) * hxy
      refine ⟨?_, ?_⟩
      · ext <;> simp [Rot.ofCols, Rot.inv] <;> first | linarith | (ring_nf; done) | (ring_nf at *; linarith)
      · simp [Rot.ofCols, Rot.inv, Rot.det]; linarith
    have := hp.inv
    exact this

/-- `GetEulerZYX` recovers the angles given to `EulerZYX`. -/
theorem C91_eulerZYX (a b c : ℝ) (ha : -π < a ∧ a ≤ π) (hc : -π < c ∧ c ≤ π) (hb : |b| ≤ π / 2 - 1 / 10 ^ 12) :
    (Rot.eulerZYX a b c).getEulerZYX = (a, b, c) := by
  unfold Rot.getEulerZYX Rot.eulerZYX
  rw [C06_rpy_left_inverse c b a hc ha hb]

namespace Geometry

/-! ## The program -/

/-- What the program prints about vectors. -/
theorem C91_vectors :
    vectors.fresh = [⟨0, 0, 0⟩, ⟨1, 2, 3⟩, ⟨1, 2, 3⟩, ⟨0, 0, 0⟩] ∧
    vectors.assigned = [⟨4, 5, 6⟩, ⟨7, 8, 9⟩, ⟨10, 11, 12⟩] ∧
    vectors.scaled = [⟨14, 16, 18⟩, ⟨8, 10, 12⟩, ⟨2, 5 / 2, 3⟩] ∧
    vectors.sums = [⟨11, 13, 15⟩, ⟨6, 6, 6⟩] ∧
    vectors.v3minus = ⟨6, 6, 6⟩ ∧ vectors.v2plus = ⟨11, 13, 15⟩ ∧
    vectors.cross = ⟨-3, 6, -3⟩ ∧ vectors.dotp = 199 ∧
    vectors.negated = ⟨-11, -13, -15⟩ ∧ vectors.reversed = ⟨11, 13, 15⟩ ∧
    vectors.eq ∧ ¬ vectors.ne ∧ vectors.equal ∧
    vectors.norm = 6 * √3 ∧ vectors.normalized = ⟨1 / √3, 1 / √3, 1 / √3⟩ ∧ vectors.cleared = ⟨0, 0, 0⟩ := by
  have e3 : vectors.v3minus = ⟨6, 6, 6⟩ := by ext <;> norm_num [vectors]
  have e2 : vectors.v2plus = ⟨11, 13, 15⟩ := by ext <;> norm_num [vectors]
  have e1 : vectors.reversed = vectors.v2plus := by ext <;> norm_num [vectors]
  have heq : ∀ (v : Vec) (e : ℝ), 0 < e → Vec.equal v v e := fun v e he => by
    simp [Vec.equal, realEqual, he]
  have hE : vectors.eq := by
    show Vec.equal vectors.reversed vectors.v2plus epsilon
    rw [e1]; exact heq _ _ epsilon_pos
  have hq : vectors.equal := by
    show Vec.equal vectors.reversed vectors.v2plus _
    rw [e1]; exact heq _ _ (by norm_num)
  have hn : epsilon ≤ (⟨6, 6, 6⟩ : Vec).norm := Vec.norm_of_comp _ (Or.inl (by norm_num [epsilon]))
  obtain ⟨n1, n2⟩ := Vec.normalize_of_le _ hn
  have hl : (⟨6, 6, 6⟩ : Vec).len = 6 * √3 := by
    unfold Vec.len
    rw [show (6 : ℝ) ^ 2 + 6 ^ 2 + 6 ^ 2 = 6 ^ 2 * 3 by norm_num, Real.sqrt_mul (by norm_num),
      Real.sqrt_sq (by norm_num)]
  have h3 : √3 ≠ 0 := by positivity
  refine ⟨rfl, rfl, ?_, ?_, e3, e2, ?_, ?_, ?_, e1.trans e2, hE, fun h => h hE, hq, ?_, ?_, rfl⟩
  · simp only [vectors, List.cons.injEq, and_true]
    refine ⟨?_, ?_, ?_⟩ <;> ext <;> norm_num
  · simp only [vectors, List.cons.injEq, and_true]
    refine ⟨?_, ?_⟩ <;> ext <;> norm_num
  · ext <;> norm_num [vectors]
  · norm_num [vectors, Vec.dot]
  · ext <;> norm_num [vectors]
  · show vectors.v3minus.norm = _
    rw [e3, n2, hl]
  · show vectors.v3minus.normalize.1 = _
    rw [e3, n1, hl]
    ext <;> simp <;> field_simp

/-- Ten of the twelve matrices are rotations. -/
theorem C91_rotations_partial :
    rotations.r1.IsProper ∧ rotations.r3.IsProper ∧ rotations.r4.IsProper ∧ rotations.r5.IsProper ∧
    rotations.r6.IsProper ∧ rotations.r7.IsProper ∧ rotations.r8.IsProper ∧ rotations.r10.IsProper ∧
    rotations.r11.IsProper ∧ rotations.r12.IsProper := by
  refine ⟨?_, ?_, ?_, Rot.isProper_rotX _, Rot.isProper_rotY _, Rot.isProper_rotZ _, Rot.isProper_rot _ _,
    Rot.isProper_eulerZYZ _ _ _, Rot.isProper_rpy _ _ _, Rot.isProper_rpy _ _ _⟩
  · exact ⟨by ext <;> simp [rotations], by norm_num [rotations, Rot.det]⟩
  · exact ⟨by ext <;> simp [rotations], by norm_num [rotations, Rot.det]⟩
  · exact ⟨by ext <;> simp [rotations], by norm_num [rotations, Rot.det]⟩

/-- The matrix built "out of three unit vectors" is not a rotation: the vectors are orthonormal but left-handed. -/
theorem C91_r2_violated :
    rotations.r2 * rotations.r2.inv = 1 ∧ rotations.r2.det = -1 ∧ ¬ rotations.r2.IsProper := by
  have hd : rotations.r2.det = -1 := by norm_num [rotations, Rot.det, Rot.ofCols]
  refine ⟨by ext <;> simp [rotations, Rot.ofCols], hd, fun h => ?_⟩
  have := h.det; rw [hd] at this; norm_num at this

private theorem sqrt_bounds : (1.414 : ℝ) < √2 ∧ √2 < 1.415 ∧ √2 * √2 = 2 :=
  ⟨Real.lt_sqrt_of_sq_lt (by norm_num), (Real.sqrt_lt' (by norm_num)).2 (by norm_num), Real.mul_self_sqrt (by norm_num)⟩

/-- The four decimals given for the axis of `r9` do not make a unit vector, and `Rot2` does not normalise: `r9` is not a
rotation. -/
theorem C91_r9_violated : ¬ rotations.r9.IsProper := by
  intro h
  obtain ⟨h1, h2, h3⟩ := sqrt_bounds
  obtain ⟨⟨r0, -, -⟩, -⟩ := h.rows
  simp only [rotations, Rot.rot2, cos_pi_div_four, sin_pi_div_four] at r0
  generalize √2 = w at *
  nlinarith

/-- It is off by little: every entry of `r9 r9ᵀ` is within `10⁻⁴` of the identity. -/
theorem C91_r9_near : (rotations.r9 * rotations.r9.inv).Within 1 (1 / 10 ^ 4) := by
  obtain ⟨h1, h2, h3⟩ := sqrt_bounds
  simp only [Rot.Within, rotations, Rot.rot2, cos_pi_div_four, sin_pi_div_four, Rot.inv]
  simp only [abs_le]
  simp
  generalize √2 = w at *
  refine ⟨?_, ?_, ?_, ?_, ?_, ?_, ?_, ?_, ?_⟩ <;> constructor <;> nlinarith

/-- The rotation vector printed for `r10` is its axis. -/
theorem C91_r10 : (facts rotations).axis10.dot (facts rotations).axis10 = 1 ∧
    Rot.rot2 (facts rotations).axis10 (facts rotations).angle10 = rotations.r10 := by
  have hr : rotations.r10.Regular epsilon := by
    rintro ⟨-, h, -⟩
    have e : rotations.r10.m02 - rotations.r10.m20 = sin 4 * cos 1 := by
      have e1 : cos 1 + cos 3 = 2 * cos 2 * cos 1 := by
        have a1 := cos_sub (2 : ℝ) 1
        have a2 := cos_add (2 : ℝ) 1
        rw [show (2 : ℝ) - 1 = 1 by norm_num] at a1
        rw [show (2 : ℝ) + 1 = 3 by norm_num] at a2
        linarith
      have e2 : sin 4 = 2 * sin 2 * cos 2 := by
        rw [← sin_two_mul]; norm_num
      rw [e2]
      show cos 1 * sin 2 - -sin 2 * cos 3 = _
      linear_combination sin 2 * e1
    rw [e] at h
    have hc : 1 / 2 ≤ cos 1 := by
      rw [← cos_pi_div_three]
      exact cos_le_cos_of_nonneg_of_le_pi (by norm_num) (by linarith [pi_pos]) (by linarith [pi_gt_three])
    have hs : sin 4 = - sin (4 - π) := by rw [sin_sub_pi]; ring
    have h1 := pi_gt_d2
    have h2 := pi_lt_d2
    have hs2 : 1 / 2 ≤ sin (4 - π) := by
      rw [← sin_pi_div_six]
      exact sin_le_sin_of_le_of_le_pi_div_two (by linarith) (by linarith) (by linarith)
    rw [hs, neg_mul, abs_neg, abs_of_nonneg (by nlinarith)] at h
    unfold epsilon at h
    nlinarith
  exact ⟨C08_axis_unit _ _ epsilon_pos (by norm_num [epsilon]) (Or.inl hr),
    C08_roundtrip_regular _ C91_rotations_partial.2.2.2.2.2.2.2.1 _ le_rfl hr⟩

/-- The entry `r8(1,2)`, the rotation vector of `r11` and the angles of `r9`: the Euler ZYX angles are the roll, pitch and
yaw angles in the opposite order. -/
theorem C91_readings :
    (facts rotations).r8_12 = (1 - √2 / 2) * (3 / 7) - √2 / (2 * √14) ∧
    (facts rotations).vec11 = rotations.r11.getRot ∧
    (facts rotations).zyx9 = ((facts rotations).rpy9.yaw, (facts rotations).rpy9.pitch, (facts rotations).rpy9.roll) ∧
    |(facts rotations).zyx9.2.1| ≤ π / 2 ∧ (facts rotations).zyz9 = rotations.r9.getEulerZYZ := by
  refine ⟨?_, rfl, rfl, ?_, rfl⟩
  · have hn : epsilon ≤ (⟨1, 2, 3⟩ : Vec).norm := Vec.norm_of_comp _ (Or.inl (by norm_num [epsilon]))
    obtain ⟨n1, n2⟩ := Vec.normalize_of_le _ hn
    have hl : (⟨1, 2, 3⟩ : Vec).len = √14 := by unfold Vec.len; norm_num
    have h14 : √14 * √14 = 14 := Real.mul_self_sqrt (by norm_num)
    have hp : √14 ≠ 0 := by positivity
    simp only [facts, rotations, Rot.rot, n1, hl, Rot.rot2, cos_pi_div_four, sin_pi_div_four]
    simp
    have e : (1 - √2 / 2) * (2 / √14) * (3 / √14) = (1 - √2 / 2) * (3 / 7) := by
      rw [mul_assoc, div_mul_div_comm, h14]; norm_num
    rw [e]; field_simp; ring
  · exact abs_le.2 (C06_rpy_ranges rotations.r9).2.2

/-- What the program prints as the three unit vectors of `r8` is one and the same vector, the axis of `r10`: the calls
meant to read the columns overwrite them. -/
theorem C91_units_violated :
    ((facts rotations).unitX = (facts rotations).axis10 ∧ (facts rotations).unitY = (facts rotations).axis10 ∧
     (facts rotations).unitZ = (facts rotations).axis10) ∧
    ¬ ((facts rotations).unitX = rotations.r8.unitX ∧ (facts rotations).unitY = rotations.r8.unitY) ∧
    ¬ ((facts rotations).unitY = rotations.r8.unitY ∧ (facts rotations).unitZ = rotations.r8.unitZ) ∧
    ¬ ((facts rotations).unitX = rotations.r8.unitX ∧ (facts rotations).unitZ = rotations.r8.unitZ) ∧
    ¬ (r8End rotations).IsProper := by
  have hx : (facts rotations).unitX = (facts rotations).axis10 := rfl
  have hy : (facts rotations).unitY = (facts rotations).axis10 := rfl
  have hz : (facts rotations).unitZ = (facts rotations).axis10 := rfl
  have h8 := C91_rotations_partial.2.2.2.2.2.2.1
  have key : ∀ R : Rot, R.IsProper → R.unitX ≠ R.unitY ∧ R.unitY ≠ R.unitZ ∧ R.unitX ≠ R.unitZ := by
    intro R h
    obtain ⟨⟨k0, k1, k2⟩, k01, k02, k12⟩ := h.cols
    refine ⟨fun e => ?_, fun e => ?_, fun e => ?_⟩ <;>
      · simp only [Rot.unitX, Rot.unitY, Rot.unitZ, Vec.mk.injEq] at e
        obtain ⟨e1, e2, e3⟩ := e
        simp only [e1, e2, e3] at *
        nlinarith
  obtain ⟨n1, n2, n3⟩ := key _ h8
  refine ⟨⟨hx, hy, hz⟩, ?_, ?_, ?_, ?_⟩
  · rintro ⟨a, b⟩; exact n1 (a.symm.trans b)
  · rintro ⟨a, b⟩; exact n2 (a.symm.trans b)
  · rintro ⟨a, b⟩; exact n3 (a.symm.trans b)
  · intro h; exact (key _ h).1 rfl

/-! ## Non-vacuity -/

-- the identity with its first column replaced by the second is singular
example : ((1 : Rot).setUnitX ⟨0, 1, 0⟩).det = 0 := by norm_num [Rot.setUnitX, Rot.det]
example : (Rot.ofCols ⟨0, 1, 0⟩ ⟨0, 0, 1⟩ ⟨1, 0, 0⟩).IsProper :=
  (C91_ofCols _ _ _).2 ⟨by norm_num [Vec.dot], by norm_num [Vec.dot], by norm_num [Vec.dot], by ext <;> norm_num⟩
-- the angles of `r12` lie outside the range of `C91_eulerZYX`; these lie inside
example : (Rot.eulerZYX 1 0 3).getEulerZYX = (1, 0, 3) :=
  C91_eulerZYX 1 0 3 ⟨by linarith [pi_gt_three], by linarith [pi_gt_three]⟩ ⟨by linarith [pi_gt_three], pi_gt_three.le⟩
    (by rw [abs_zero]; linarith [pi_gt_three])

end Geometry
end KDL
