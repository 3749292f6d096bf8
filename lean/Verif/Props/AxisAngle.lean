import Verif.Lemmas.Angles

/-! C08, C09: axis-angle extraction, `diff` and `addDelta`. -/

namespace KDL
open Real

/-! ### helpers -/

/-- The skew part of a proper rotation has at least one entry of size `eps`: the regular case of `GetRotAngle`. -/
def Rot.Regular (R : Rot) (eps : ℝ) : Prop :=
  ¬ (|R.m01 - R.m10| < eps ∧ |R.m02 - R.m20| < eps ∧ |R.m12 - R.m21| < eps)

private theorem regular_norm (R : Rot) (eps : ℝ) (he : epsilon ≤ eps) (hr : R.Regular eps) :
    let axis : Vec := ⟨R.m21 - R.m12, R.m02 - R.m20, R.m10 - R.m01⟩
    axis.norm = axis.len ∧ epsilon ≤ axis.norm ∧ axis.normalize = (axis / axis.len, axis.len) := by
  intro axis
  have hlen : ∀ c, c ^ 2 ≤ axis.x ^ 2 + axis.y ^ 2 + axis.z ^ 2 → |c| ≤ axis.len := by
    intro c hc
    rw [← sqrt_sq_eq_abs]
    exact sqrt_le_sqrt hc
  have hx := hlen axis.x (by nlinarith [sq_nonneg axis.y, sq_nonneg axis.z])
  have hy := hlen axis.y (by nlinarith [sq_nonneg axis.x, sq_nonneg axis.z])
  have hz := hlen axis.z (by nlinarith [sq_nonneg axis.x, sq_nonneg axis.y])
  have hbig : eps ≤ axis.len := by
    by_contra hc
    push Not at hc
    apply hr
    refine ⟨?_, ?_, ?_⟩
    · rw [abs_sub_comm]; exact lt_of_le_of_lt hz hc
    · exact lt_of_le_of_lt hy hc
    · rw [abs_sub_comm]; exact lt_of_le_of_lt hx hc
  have hn : axis.norm = axis.len := by
    rw [Vec.norm_eq axis epsilon epsilon_pos, if_neg]
    rintro ⟨h1, h2, h3⟩
    apply hr
    refine ⟨?_, ?_, ?_⟩
    · rw [abs_sub_comm]; exact lt_of_lt_of_le (lt_of_le_of_lt h2 h3) he
    · exact lt_of_lt_of_le (lt_of_le_of_lt h1 h3) he
    · rw [abs_sub_comm]; exact lt_of_lt_of_le h3 he
  refine ⟨hn, hn ▸ he.trans hbig, ?_⟩
  unfold Vec.normalize
  rw [hn, if_neg (not_lt.mpr (he.trans hbig))]

/-- In the regular case: sine and cosine of the extracted angle, and the axis. -/
theorem Rot.regular_core (R : Rot) (h : R.IsProper) (eps : ℝ) (he : epsilon ≤ eps)
    (hr : R.Regular eps) :
    let axis : Vec := ⟨R.m21 - R.m12, R.m02 - R.m20, R.m10 - R.m01⟩
    0 < axis.len ∧ (R.getRotAngle eps).1 = axis / axis.len ∧
    sin (R.getRotAngle eps).2 = axis.len / 2 ∧
    cos (R.getRotAngle eps).2 = (R.m00 + R.m11 + R.m22 - 1) / 2 ∧
    axis.len ^ 2 = (1 + R.m00 + R.m11 + R.m22) * (3 - R.m00 - R.m11 - R.m22) := by
  intro axis
  obtain ⟨hn, hbig, hnorm⟩ := regular_norm R eps he hr
  have g := h.gram
  have hl2 : axis.len ^ 2 = (1 + R.m00 + R.m11 + R.m22) * (3 - R.m00 - R.m11 - R.m22) := by
    rw [Vec.len_sq, Vec.dot]
    linear_combination g.wx2 + g.wy2 + g.wz2
  have hu : ((R.m00 + R.m11 + R.m22 - 1) / 2) ^ 2 + (axis.len / 2) ^ 2 = 1 := by
    linear_combination (1 / 4) * hl2
  have hget : R.getRotAngle eps =
      (axis.normalize.1, atan2 (axis.norm / 2) ((R.m00 + R.m11 + R.m22 - 1) / 2)) := by
    unfold Rot.getRotAngle
    rw [if_neg hr]
  refine ⟨lt_of_lt_of_le epsilon_pos (hn ▸ hbig), ?_, ?_, ?_, hl2⟩
  · rw [hget, hnorm]
  · rw [hget, hn]; exact sin_atan2_of_unit hu
  · rw [hget, hn]; exact cos_atan2_of_unit hu

/-! ## C08 -/

/-- Rebuilding the rotation from the extracted axis and angle, regular case (some entry of the skew part is at least
`eps`), for every tolerance not below the library's `epsilon`. -/
theorem C08_roundtrip_regular (R : Rot) (h : R.IsProper) (eps : ℝ) (he : epsilon ≤ eps)
    (hr : R.Regular eps) : Rot.rot2 (R.getRotAngle eps).1 (R.getRotAngle eps).2 = R := by
  obtain ⟨hpos, hax, hsin, hcos, hl2⟩ := Rot.regular_core R h eps he hr
  have g := h.gram
  set L := Vec.len ⟨R.m21 - R.m12, R.m02 - R.m20, R.m10 - R.m01⟩
  have ha : (1 + R.m00 + R.m11 + R.m22) ≠ 0 := by
    intro h0; rw [h0, zero_mul] at hl2; nlinarith
  have hb : (3 - R.m00 - R.m11 - R.m22) ≠ 0 := by
    intro h0; rw [h0, mul_zero] at hl2; nlinarith
  -- products of axis components
  have key : ∀ p c : ℝ, p = (1 + R.m00 + R.m11 + R.m22) * c →
      (1 - (R.m00 + R.m11 + R.m22 - 1) / 2) * p / L ^ 2 = c / 2 := by
    intro p c hp
    rw [hp, hl2]; field_simp; ring
  have k1 := key _ _ g.wx2
  have k2 := key _ _ g.wy2
  have k3 := key _ _ g.wz2
  have k4 := key _ _ g.wxwy
  have k5 := key _ _ g.wxwz
  have k6 := key _ _ g.wywz
  have e : ∀ a b : ℝ, (1 - (R.m00 + R.m11 + R.m22 - 1) / 2) * (a / L) * (b / L) =
      (1 - (R.m00 + R.m11 + R.m22 - 1) / 2) * (a * b) / L ^ 2 := by
    intro a b; field_simp
  have e2 : ∀ a : ℝ, a / L * (L / 2) = a / 2 := by intro a; field_simp
  ext <;> simp only [Rot.rot2, hax, hsin, hcos, Vec.div_x, Vec.div_y, Vec.div_z, e, e2]
  · rw [← pow_two, k1]; ring
  · rw [k4]; ring
  · rw [k5]; ring
  · rw [k4]; ring
  · rw [← pow_two, k2]; ring
  · rw [k6]; ring
  · rw [k5]; ring
  · rw [k6]; ring
  · rw [← pow_two, k3]; ring

private theorem symm_cases (R : Rot) (h : R.IsProper) (h1 : R.m01 = R.m10) (h2 : R.m02 = R.m20)
    (h3 : R.m12 = R.m21) : R = 1 ∨ R.m00 + R.m11 + R.m22 = -1 := by
  have g := h.gram
  obtain ⟨⟨r0, r1, r2⟩, r01, r02, r12⟩ := h.rows
  by_cases ha : 1 + R.m00 + R.m11 + R.m22 = 0
  · right; linarith
  · left
    have z : ∀ c, (1 + R.m00 + R.m11 + R.m22) * c = 0 → c = 0 := fun c hc =>
      (mul_eq_zero.mp hc).resolve_left ha
    have b := z _ (g.wx2.symm.trans (by rw [h3]; ring))
    have c := z _ (g.wy2.symm.trans (by rw [h2]; ring))
    have d := z _ (g.wz2.symm.trans (by rw [h1]; ring))
    have e1 : R.m00 = 1 + (R.m11 - 1) + (R.m22 - 1) + 0 := by linarith
    have f : R.m11 = R.m22 := by linarith
    have f' : R.m00 = R.m11 := by linarith
    have m0 : R.m00 = 1 := by linarith
    have m1 : R.m11 = 1 := by linarith
    have m2 : R.m22 = 1 := by linarith
    have q : ∀ a b : ℝ, a ^ 2 + b ^ 2 = 0 → a = 0 ∧ b = 0 := fun a b hab => by
      constructor <;> rw [← sq_eq_zero_iff] <;> linarith [sq_nonneg a, sq_nonneg b]
    obtain ⟨q1, q2⟩ := q R.m01 R.m02 (by rw [m0] at r0; linarith)
    obtain ⟨q3, q4⟩ := q R.m10 R.m12 (by rw [m1] at r1; linarith)
    obtain ⟨q5, q6⟩ := q R.m20 R.m21 (by rw [m2] at r2; linarith)
    ext <;> simp only [Rot.one_m00, Rot.one_m01, Rot.one_m02, Rot.one_m10, Rot.one_m11, Rot.one_m12,
      Rot.one_m20, Rot.one_m21, Rot.one_m22] <;> assumption

private theorem pi_axis {A B C p q r : ℝ} (hA : 0 < A) (hp : p * p = A * B) (hq : q * q = A * C)
    (hr : p * q = A * r) :
    sqrt A * sqrt A = A ∧ p / sqrt A * (p / sqrt A) = B ∧ q / sqrt A * (q / sqrt A) = C ∧
    sqrt A * (p / sqrt A) = p ∧ sqrt A * (q / sqrt A) = q ∧ p / sqrt A * (q / sqrt A) = r := by
  have hs := mul_self_sqrt hA.le
  have hs0 := (sqrt_pos.mpr hA).ne'
  refine ⟨hs, ?_, ?_, ?_, ?_, ?_⟩
  · rw [div_mul_div_comm, hs, hp]; field_simp
  · rw [div_mul_div_comm, hs, hq]; field_simp
  · field_simp
  · field_simp
  · rw [div_mul_div_comm, hs, hr]; field_simp

/-- Value of the extraction on a symmetric proper rotation other than the identity. -/
private theorem symm_core (R : Rot) (h : R.IsProper) (eps : ℝ) (he : 0 < eps) (he' : eps * 10 ≤ 4)
    (h1 : R.m01 = R.m10) (h2 : R.m02 = R.m20) (h3 : R.m12 = R.m21)
    (ht : R.m00 + R.m11 + R.m22 = -1) :
    (R.getRotAngle eps).2 = π ∧
    (let u := (R.getRotAngle eps).1
     u.x * u.x = (R.m00 + 1) / 2 ∧ u.y * u.y = (R.m11 + 1) / 2 ∧ u.z * u.z = (R.m22 + 1) / 2 ∧
     u.x * u.y = (R.m01 + R.m10) / 4 ∧ u.x * u.z = (R.m02 + R.m20) / 4 ∧
     u.y * u.z = (R.m12 + R.m21) / 4) := by
  obtain ⟨_, _, _, gxy, gxz, gyz, _, _, _, _, _, gxyxz, _, _, gxyyz, _, _, gxzyz⟩ := h.gram
  have hb : 1 + R.m00 - R.m11 - R.m22 = 2 * (R.m00 + 1) := by linarith
  have hc : 1 - R.m00 + R.m11 - R.m22 = 2 * (R.m11 + 1) := by linarith
  have hd : 1 - R.m00 - R.m11 + R.m22 = 2 * (R.m22 + 1) := by linarith
  rw [hb] at gxy gxz gxyxz
  rw [hc] at gxy gyz gxyyz
  rw [hd] at gxz gyz gxzyz
  have hsing : |R.m01 - R.m10| < eps ∧ |R.m02 - R.m20| < eps ∧ |R.m12 - R.m21| < eps := by
    rw [h1, h2, h3]; simp [he]
  have hnid : ¬ (|R.m01 + R.m10| < eps * 10 ∧ |R.m02 + R.m20| < eps * 10 ∧
      |R.m12 + R.m21| < eps * 10 ∧ |R.m00 + R.m11 + R.m22 - 3| < eps * 10) := by
    rintro ⟨_, _, _, h4⟩
    rw [ht] at h4
    norm_num at h4
    linarith
  have t1 : (R.m01 + R.m10) / 4 * ((R.m01 + R.m10) / 4) = (R.m00 + 1) / 2 * ((R.m11 + 1) / 2) := by
    linear_combination gxy / 16
  have t2 : (R.m02 + R.m20) / 4 * ((R.m02 + R.m20) / 4) = (R.m00 + 1) / 2 * ((R.m22 + 1) / 2) := by
    linear_combination gxz / 16
  have t3 : (R.m12 + R.m21) / 4 * ((R.m12 + R.m21) / 4) = (R.m11 + 1) / 2 * ((R.m22 + 1) / 2) := by
    linear_combination gyz / 16
  have t4 : (R.m01 + R.m10) / 4 * ((R.m02 + R.m20) / 4) = (R.m00 + 1) / 2 * ((R.m12 + R.m21) / 4) := by
    linear_combination gxyxz / 16
  have t5 : (R.m01 + R.m10) / 4 * ((R.m12 + R.m21) / 4) = (R.m11 + 1) / 2 * ((R.m02 + R.m20) / 4) := by
    linear_combination gxyyz / 16
  have t6 : (R.m02 + R.m20) / 4 * ((R.m12 + R.m21) / 4) = (R.m22 + 1) / 2 * ((R.m01 + R.m10) / 4) := by
    linear_combination gxzyz / 16
  unfold Rot.getRotAngle
  simp only [if_pos hsing, if_neg hnid]
  split_ifs with c1 c2
  · have hpos : 0 < (R.m00 + 1) / 2 := by linarith [c1.1, c1.2]
    obtain ⟨k1, k2, k3, k4, k5, k6⟩ := pi_axis hpos t1 t2 t4
    exact ⟨rfl, k1, k2, k3, k4, k5, k6⟩
  · have hpos : 0 < (R.m11 + 1) / 2 := by
      have : (R.m00 + 1) / 2 ≤ (R.m11 + 1) / 2 := by
        by_contra hcon; push Not at hcon; exact c1 ⟨hcon, by linarith⟩
      linarith
    obtain ⟨k1, k2, k3, k4, k5, k6⟩ := pi_axis hpos (t1.trans (mul_comm _ _)) t3 t5
    exact ⟨rfl, k2, k1, k3, (mul_comm _ _).trans k4, k6, k5⟩
  · have hpos : 0 < (R.m22 + 1) / 2 := by
      have : (R.m00 + 1) / 2 ≤ (R.m22 + 1) / 2 := by
        by_contra hcon; push Not at hcon; exact c1 ⟨by linarith, hcon⟩
      linarith
    obtain ⟨k1, k2, k3, k4, k5, k6⟩ := pi_axis hpos (t2.trans (mul_comm _ _)) (t3.trans (mul_comm _ _)) t6
    exact ⟨rfl, k2, k3, k1, k6, (mul_comm _ _).trans k4, (mul_comm _ _).trans k5⟩

/-- Rebuilding an exactly symmetric rotation (the identity or a half turn), through all four singular branches. -/
theorem C08_roundtrip_symmetric (R : Rot) (h : R.IsProper) (eps : ℝ) (he : 0 < eps)
    (he' : eps * 10 ≤ 4) (h1 : R.m01 = R.m10) (h2 : R.m02 = R.m20) (h3 : R.m12 = R.m21) :
    Rot.rot2 (R.getRotAngle eps).1 (R.getRotAngle eps).2 = R := by
  rcases symm_cases R h h1 h2 h3 with rfl | ht
  · have : (1 : Rot).getRotAngle eps = (⟨0, 0, 1⟩, 0) := by
      have h3 : ((1 : ℝ) + 1 + 1 - 3) = 0 := by norm_num
      simp [Rot.getRotAngle, he, h3]
    rw [this]; exact Rot.rot2_zero _
  · obtain ⟨hpi, k1, k2, k3, k4, k5, k6⟩ := symm_core R h eps he he' h1 h2 h3 ht
    ext <;> simp only [Rot.rot2, hpi, cos_pi, sin_pi]
    · linear_combination 2 * k1
    · linear_combination 2 * k4 + h1 / 2 * (-1)
    · linear_combination 2 * k5 - h2 / 2
    · linear_combination 2 * k4 + h1 / 2
    · linear_combination 2 * k2
    · linear_combination 2 * k6 - h3 / 2
    · linear_combination 2 * k5 + h2 / 2
    · linear_combination 2 * k6 + h3 / 2
    · linear_combination 2 * k3

/-- The returned angle is in the documented range `[0, π]`, for every matrix and every tolerance. -/
theorem C08_angle_range (R : Rot) (eps : ℝ) :
    0 ≤ (R.getRotAngle eps).2 ∧ (R.getRotAngle eps).2 ≤ π := by
  unfold Rot.getRotAngle
  dsimp only
  split_ifs
  · exact ⟨le_rfl, pi_pos.le⟩
  · exact ⟨pi_pos.le, le_rfl⟩
  · exact ⟨pi_pos.le, le_rfl⟩
  · exact ⟨pi_pos.le, le_rfl⟩
  · exact ⟨atan2_nonneg (div_nonneg (Vec.norm_nonneg _ _ epsilon_pos) zero_le_two), (atan2_range _ _).2⟩

/-- The returned axis is a unit vector: for every matrix in the regular case, and for half turns and the identity. -/
theorem C08_axis_unit (R : Rot) (eps : ℝ) (he : 0 < eps) (he' : eps * 10 ≤ 4)
    (h : R.Regular eps ∨ (R.IsProper ∧ R.m01 = R.m10 ∧ R.m02 = R.m20 ∧ R.m12 = R.m21)) :
    (R.getRotAngle eps).1.dot (R.getRotAngle eps).1 = 1 := by
  rcases h with hr | ⟨h, h1, h2, h3⟩
  · unfold Rot.getRotAngle
    rw [if_neg hr]
    exact Vec.normalize_dot _ _ epsilon_pos
  · rcases symm_cases R h h1 h2 h3 with rfl | ht
    · have : (1 : Rot).getRotAngle eps = (⟨0, 0, 1⟩, 0) := by
        have h3 : ((1 : ℝ) + 1 + 1 - 3) = 0 := by norm_num
        simp [Rot.getRotAngle, he, h3]
      rw [this]; simp [Vec.dot]
    · obtain ⟨_, k1, k2, k3, _⟩ := symm_core R h eps he he' h1 h2 h3 ht
      simp only [Vec.dot]
      linear_combination k1 + k2 + k3 + ht / 2

/-- Extraction inverts construction: unit axis, angle strictly between `0` and `π`, away from the tolerance band. -/
theorem C08_recovers (u : Vec) (hu : u.dot u = 1) (a : ℝ) (ha : 0 < a ∧ a < π)
    (eps : ℝ) (he : epsilon ≤ eps) (hr : (Rot.rot2 u a).Regular eps) :
    (Rot.rot2 u a).getRotAngle eps = (u, a) := by
  have hp := Rot.isProper_rot2 u hu a
  obtain ⟨hpos, hax, hsin, hcos, hl2⟩ := Rot.regular_core _ hp eps he hr
  have hs : 0 < sin a := sin_pos_of_pos_of_lt_pi ha.1 ha.2
  have haxis : (⟨(Rot.rot2 u a).m21 - (Rot.rot2 u a).m12, (Rot.rot2 u a).m02 - (Rot.rot2 u a).m20,
      (Rot.rot2 u a).m10 - (Rot.rot2 u a).m01⟩ : Vec) = (2 * sin a) • u := by
    ext <;> simp [Rot.rot2] <;> ring
  have hlen : ((2 * sin a) • u).len = 2 * sin a := by
    rw [Vec.len_eq_sqrt_dot, Vec.smul_dot, Vec.dot_smul, hu, mul_one, ← pow_two, sqrt_sq (by linarith)]
  rw [haxis, hlen] at hax hsin
  have h1 : ((Rot.rot2 u a).getRotAngle eps).1 = u := by
    rw [hax]
    ext <;> simp <;> field_simp
  have h2 : ((Rot.rot2 u a).getRotAngle eps).2 = a := by
    apply injOn_cos (C08_angle_range _ _) ⟨ha.1.le, ha.2.le⟩
    rw [hcos]
    simp only [Rot.rot2, Vec.dot] at hu ⊢
    linear_combination (1 - cos a) / 2 * hu
  exact Prod.ext h1 h2

/-- Witness of the non-vacuity of the regular case. -/
example : (Rot.rotY (π / 2)).Regular epsilon ∧ (Rot.rotY (π / 2)).IsProper := by
  refine ⟨?_, Rot.isProper_rotY _⟩
  rintro ⟨_, h, _⟩
  simp [Rot.rotY, epsilon] at h
  norm_num at h

/-- A half turn about `(0.8, 0, -0.6)` (also a witness of the symmetric case). -/
noncomputable def halfTurn : Rot := Rot.rot2 ⟨4 / 5, 0, -3 / 5⟩ π

private theorem halfTurn_eq : halfTurn = ⟨7 / 25, 0, -24 / 25, 0, -1, 0, -24 / 25, 0, -7 / 25⟩ := by
  ext <;> simp [halfTurn, Rot.rot2] <;> norm_num

/-- **Violation.**  The documentation (frames.hpp, `GetRotAngle`: "in the case of an angle equal to PI, the axis with
positive Z-component is chosen") does not hold: the half turn about `(0.8, 0, -0.6)` is answered with exactly that axis. -/
theorem C08_positive_z_violated :
    halfTurn.IsProper ∧ halfTurn.getRotAngle.2 = π ∧ halfTurn.getRotAngle.1.z < 0 := by
  refine ⟨Rot.isProper_rot2 _ (by norm_num [Vec.dot]) _, ?_⟩
  have he := epsilon_pos
  have hr : halfTurn.getRotAngle = (⟨sqrt (16 / 25), 0 / sqrt (16 / 25), -12 / 25 / sqrt (16 / 25)⟩, π) := by
    rw [halfTurn_eq]
    unfold Rot.getRotAngle
    dsimp only
    rw [if_pos (by simp [he]), if_neg (by
      rintro ⟨_, _, _, h⟩; norm_num [epsilon] at h), if_pos (by norm_num)]
    norm_num
  rw [hr]
  refine ⟨rfl, ?_⟩
  have : 0 < sqrt (16 / 25 : ℝ) := sqrt_pos.mpr (by norm_num)
  show -12 / 25 / sqrt (16 / 25) < 0
  exact div_neg_of_neg_of_pos (by norm_num) this

/-- What does hold of the documented sign rule (full statement: the axis returned for a half turn has non-negative Z
component): it holds whenever Z is the dominant coordinate of the axis.  Missing: the X- and Y-dominant branches, where
`C08_positive_z_violated` refutes it. -/
theorem C08_positive_z_partial (R : Rot) (h : R.IsProper) (h1 : R.m01 = R.m10) (h2 : R.m02 = R.m20)
    (h3 : R.m12 = R.m21) (ht : R.m00 + R.m11 + R.m22 = -1) (hz : R.m00 ≤ R.m22 ∧ R.m11 ≤ R.m22) :
    0 < R.getRotAngle.1.z := by
  unfold Rot.getRotAngle
  dsimp only
  have he := epsilon_pos
  rw [if_pos (by rw [h1, h2, h3]; simp [he]), if_neg (by
    rintro ⟨_, _, _, h⟩; rw [ht] at h; norm_num [epsilon] at h), if_neg (by
    rintro ⟨_, h⟩; linarith [hz.1]), if_neg (by intro h; linarith [hz.2])]
  exact sqrt_pos.mpr (by linarith [hz.1, hz.2])

example : ∃ R : Rot, R.IsProper ∧ R.m01 = R.m10 ∧ R.m02 = R.m20 ∧ R.m12 = R.m21 ∧
    R.m00 + R.m11 + R.m22 = -1 ∧ R.m00 ≤ R.m22 ∧ R.m11 ≤ R.m22 :=
  ⟨Rot.rotZ π, Rot.isProper_rotZ _, by simp [Rot.rotZ]⟩

/-! ## C09 -/

theorem C09_vec (a b : Vec) (dt : ℝ) (h : dt ≠ 0) : Vec.addDelta a (Vec.diff a b dt) dt = b := by
  ext <;> simp [Vec.addDelta, Vec.diff] <;> field_simp <;> ring

theorem C09_vec_left (a da : Vec) (dt : ℝ) (h : dt ≠ 0) : Vec.diff a (Vec.addDelta a da dt) dt = da := by
  ext <;> simp [Vec.addDelta, Vec.diff] <;> field_simp

theorem C09_twist (a b : Twist) (dt : ℝ) (h : dt ≠ 0) :
    Twist.addDelta a (Twist.diff a b dt) dt = b := by
  simp [Twist.addDelta, Twist.diff, C09_vec _ _ _ h]

theorem C09_wrench (a b : Wrench) (dt : ℝ) (h : dt ≠ 0) :
    Wrench.addDelta a (Wrench.diff a b dt) dt = b := by
  simp [Wrench.addDelta, Wrench.diff, C09_vec _ _ _ h]

private theorem norm_of_big (v : Vec) (h : 2 * epsilon ≤ v.len) : v.norm = v.len := by
  rw [Vec.norm_eq v epsilon epsilon_pos, if_neg]
  rintro ⟨h1, h2, h3⟩
  have he := epsilon_pos
  have hl := Vec.len_sq v
  have k1 : v.y ^ 2 ≤ epsilon ^ 2 := by
    rw [← sq_abs]; exact pow_le_pow_left₀ (abs_nonneg _) (h1.trans h3.le) 2
  have k2 : v.z ^ 2 ≤ epsilon ^ 2 := by
    rw [← sq_abs]; exact pow_le_pow_left₀ (abs_nonneg _) (h2.trans h3.le) 2
  have k3 : v.x ^ 2 ≤ epsilon ^ 2 := by
    rw [← sq_abs]; exact pow_le_pow_left₀ (abs_nonneg _) h3.le 2
  have k4 : (2 * epsilon) ^ 2 ≤ v.len ^ 2 := pow_le_pow_left₀ (by positivity) h 2
  rw [hl, Vec.dot] at k4
  nlinarith [sq_nonneg epsilon, mul_pos he he]

private theorem ofRotVec_smul (u : Vec) (hu : u.dot u = 1) (a : ℝ) (ha : 2 * epsilon ≤ a ∨ a = 0) :
    Rot.ofRotVec (a • u) = Rot.rot2 u a := by
  rcases ha with ha | rfl
  · have he := epsilon_pos
    have hlen : (a • u).len = a := by
      rw [Vec.len_eq_sqrt_dot, Vec.smul_dot, Vec.dot_smul, hu, mul_one, ← pow_two,
        sqrt_sq (by linarith)]
    have hn : (a • u).norm = a := by rw [norm_of_big _ (by rw [hlen]; exact ha), hlen]
    have ha0 : a ≠ 0 := by intro h; rw [h] at ha; linarith
    have hN : (a • u).normalize (1 / 10 ^ 10) = (u, a) := by
      unfold Vec.normalize
      rw [hn, if_neg (by rw [not_lt]; refine le_trans ?_ ha; norm_num [epsilon])]
      refine Prod.ext ?_ rfl
      ext <;> simp <;> field_simp
    rw [Rot.ofRotVec_eq, hN]
  · have hN : ((0 : ℝ) • u).normalize (1 / 10 ^ 10) = (⟨1, 0, 0⟩, 0) := by
      rw [zero_smul]
      unfold Vec.normalize
      rw [if_pos]
      rw [Vec.norm_eq _ _ epsilon_pos]
      simp [epsilon_pos]
    rw [Rot.ofRotVec_eq, hN, Rot.rot2_zero, Rot.rot2_zero]

/-- Rotations whose relative rotation `aᵀ b` has an angle of at least `2·epsilon` and is not inside the tolerance band
around a half turn, or is exactly symmetric (identity or half turn).  Full statement: for all proper rotations `a`, `b`.
Missing: relative rotations inside the tolerance bands; `C09_rot_violated` shows that the restriction is needed. -/
theorem C09_rot_partial (a b : Rot) (ha : a.IsProper) (hb : b.IsProper) (dt : ℝ) (hdt : dt ≠ 0)
    (h : ((a.inv * b).Regular epsilon ∧ 2 * epsilon ≤ (a.inv * b).getRotAngle.2) ∨
      ((a.inv * b).m01 = (a.inv * b).m10 ∧ (a.inv * b).m02 = (a.inv * b).m20 ∧
        (a.inv * b).m12 = (a.inv * b).m21)) :
    Rot.addDelta a (Rot.diff a b dt) dt = b := by
  have hS : (a.inv * b).IsProper := ha.inv.mul hb
  have he' : epsilon * 10 ≤ 4 := by norm_num [epsilon]
  set S := a.inv * b with hSdef
  have key : Rot.rot2 S.getRotAngle.1 S.getRotAngle.2 = S ∧
      (2 * epsilon ≤ S.getRotAngle.2 ∨ S.getRotAngle.2 = 0) ∧
      S.getRotAngle.1.dot S.getRotAngle.1 = 1 := by
    rcases h with ⟨hr, h2⟩ | ⟨h1, h2, h3⟩
    · exact ⟨C08_roundtrip_regular S hS _ le_rfl hr, Or.inl h2,
        C08_axis_unit S _ epsilon_pos he' (Or.inl hr)⟩
    · refine ⟨C08_roundtrip_symmetric S hS _ epsilon_pos he' h1 h2 h3, ?_,
        C08_axis_unit S _ epsilon_pos he' (Or.inr ⟨hS, h1, h2, h3⟩)⟩
      rcases symm_cases S hS h1 h2 h3 with h | ht
      · right
        rw [h]
        have h3 : ((1 : ℝ) + 1 + 1 - 3) = 0 := by norm_num
        simp [Rot.getRotAngle, epsilon_pos, h3]
      · left
        rw [(symm_core S hS _ epsilon_pos he' h1 h2 h3 ht).1]
        have := two_le_pi
        norm_num [epsilon]; linarith
  obtain ⟨k1, k2, k3⟩ := key
  have hv : dt • Rot.diff a b dt = S.getRotAngle.2 • (a * S.getRotAngle.1) := by
    rw [← Rot.app_smul]
    simp only [Rot.diff, ← hSdef, Rot.getRot]
    ext <;> simp <;> field_simp
  rw [Rot.addDelta, hv, ofRotVec_smul _ (by rw [ha.dot]; exact k3) _ k2, ← Rot.rot2_conj a ha, k1, hSdef,
    ← mul_assoc, ha.orth, one_mul, mul_assoc, ha.inv_mul_self, mul_one]

/-- Frames, under the same restriction on the rotation parts. -/
theorem C09_frame_partial (a b : Frame) (ha : a.IsProper) (hb : b.IsProper) (dt : ℝ) (hdt : dt ≠ 0)
    (h : ((a.M.inv * b.M).Regular epsilon ∧ 2 * epsilon ≤ (a.M.inv * b.M).getRotAngle.2) ∨
      ((a.M.inv * b.M).m01 = (a.M.inv * b.M).m10 ∧ (a.M.inv * b.M).m02 = (a.M.inv * b.M).m20 ∧
        (a.M.inv * b.M).m12 = (a.M.inv * b.M).m21)) :
    Frame.addDelta a (Frame.diff a b dt) dt = b := by
  simp only [Frame.addDelta, Frame.diff, C09_rot_partial a.M b.M ha hb dt hdt h, C09_vec _ _ _ hdt]

example : ((1 : Rot).inv * Rot.rotY (π / 2)).Regular epsilon ∧
    2 * epsilon ≤ ((1 : Rot).inv * Rot.rotY (π / 2)).getRotAngle.2 := by
  have e1 : (1 : Rot).inv * Rot.rotY (π / 2) = Rot.rot2 ⟨0, 1, 0⟩ (π / 2) := by
    rw [← Rot.rotY_eq]; ext <;> simp [Rot.inv]
  have hr : (Rot.rot2 ⟨0, 1, 0⟩ (π / 2)).Regular epsilon := by
    rintro ⟨_, h, _⟩
    simp [Rot.rot2, epsilon] at h
    norm_num at h
  rw [e1, C08_recovers _ (by simp [Vec.dot]) _ ⟨by positivity, by linarith [pi_pos]⟩ _ le_rfl hr]
  refine ⟨hr, ?_⟩
  have := two_le_pi
  norm_num [epsilon]; linarith

private theorem sin_small : 1 / 1000000 ≤ 2 * sin (6 / 10000000) := by
  have := sin_gt_sub_cube (x := 6 / 10000000) (by norm_num)
  refine le_trans ?_ (mul_le_mul_of_nonneg_left this.le zero_le_two)
  norm_num

private theorem small_recovers (u : Vec) (hu : u.dot u = 1)
    (hr : (Rot.rot2 u (6 / 10000000)).Regular epsilon) :
    Rot.diff 1 (Rot.rot2 u (6 / 10000000)) 1 = (6 / 10000000 : ℝ) • u := by
  have e1 : (1 : Rot).inv * Rot.rot2 u (6 / 10000000) = Rot.rot2 u (6 / 10000000) := by
    ext <;> simp [Rot.inv]
  have h := C08_recovers u hu (6 / 10000000) ⟨by norm_num, by linarith [two_le_pi]⟩ _ le_rfl hr
  rw [Rot.diff, e1, Rot.getRot, h]
  ext <;> simp

/-- **Violation.**  For a rotation of `6e-7` rad about X the round trip loses the rotation entirely, because
`Vector::Norm` (frames.cpp:125) returns 0 for x-dominant vectors below `1e-6`; the same rotation about Y survives it. -/
theorem C09_rot_violated :
    Rot.addDelta 1 (Rot.diff 1 (Rot.rotX (6 / 10000000)) 1) 1 = 1 ∧
    Rot.rotX (6 / 10000000) ≠ 1 ∧
    Rot.addDelta 1 (Rot.diff 1 (Rot.rotY (6 / 10000000)) 1) 1 = Rot.rotY (6 / 10000000) := by
  have hs := sin_small
  have hsp : 0 < sin (6 / 10000000 : ℝ) := by linarith
  refine ⟨?_, ?_, ?_⟩
  · rw [Rot.rotX_eq, small_recovers]
    · rw [Rot.addDelta, one_smul, mul_one, Rot.ofRotVec_eq]
      have : ((6 / 10000000 : ℝ) • (⟨1, 0, 0⟩ : Vec)).normalize (1 / 10 ^ 10) = (⟨1, 0, 0⟩, 0) := by
        unfold Vec.normalize
        rw [if_pos]
        rw [Vec.norm_eq _ _ epsilon_pos, if_pos]
        · norm_num
        · simp [epsilon, abs_of_pos]; norm_num
      rw [this, Rot.rot2_zero]
    · simp [Vec.dot]
    · rintro ⟨_, _, h⟩
      simp only [Rot.rot2, epsilon] at h
      have h2 := (abs_lt.mp h).1
      linarith
  · intro h
    have := congrArg Rot.m21 h
    simp [Rot.rotX] at this
    exact hsp.ne' this
  · rw [Rot.rotY_eq, small_recovers]
    · rw [Rot.addDelta, one_smul, mul_one, Rot.ofRotVec_eq]
      have hn : ((6 / 10000000 : ℝ) • (⟨0, 1, 0⟩ : Vec)).norm = 6 / 10000000 := by
        rw [Vec.norm_eq _ _ epsilon_pos, if_neg]
        · simp [Vec.len]; exact sqrt_sq (by norm_num)
        · rintro ⟨h, _⟩
          simp [abs_of_pos] at h
          norm_num at h
      have : ((6 / 10000000 : ℝ) • (⟨0, 1, 0⟩ : Vec)).normalize (1 / 10 ^ 10) = (⟨0, 1, 0⟩, 6 / 10000000) := by
        unfold Vec.normalize
        rw [hn, if_neg (by norm_num)]
        refine Prod.ext ?_ rfl
        ext <;> simp
      rw [this]
    · simp [Vec.dot]
    · rintro ⟨_, h, _⟩
      simp only [Rot.rot2, epsilon] at h
      have h2 := (abs_lt.mp h).2
      linarith

end KDL
