import Verif.Props.Planar

/-! C14: lengths, normalisation and the plane setters. -/

namespace KDL
open Real

/-- `Norm` is the Euclidean length.  Full statement: `v.norm = v.len` for all `v`.
Missing: vectors whose (weakly) dominant coordinate is x and smaller than `epsilon`; see `C14_norm_violated`. -/
theorem C14_norm_partial (v : Vec) (eps : ℝ) (he : 0 < eps)
    (h : eps ≤ |v.x| ∨ |v.x| < |v.y| ∨ |v.x| < |v.z|) : v.norm eps = v.len := by
  rw [Vec.norm_eq v eps he, if_neg]
  rintro ⟨h1, h2, h3⟩
  rcases h with h | h | h
  · exact absurd h3 (not_lt.mpr h)
  · exact absurd h1 (not_le.mpr h)
  · exact absurd h2 (not_le.mpr h)

example : epsilon ≤ |(⟨3, 4, 0⟩ : Vec).x| ∧ (⟨3, 4, 0⟩ : Vec).len = 5 := by
  refine ⟨by norm_num [epsilon], ?_⟩
  rw [Vec.len, show ((3 : ℝ) ^ 2 + 4 ^ 2 + 0 ^ 2) = 5 ^ 2 by norm_num, sqrt_sq (by norm_num)]

/-- **Violation.**  `Norm` depends on which coordinate is dominant: permuting the coordinates (a proper rotation)
changes the returned length. -/
theorem C14_norm_violated :
    (⟨1 / 10000000, 0, 0⟩ : Vec).norm = 0 ∧
    (⟨0, 1 / 10000000, 0⟩ : Vec).norm = 1 / 10000000 ∧
    (∃ R : Rot, R.IsProper ∧ R * (⟨1 / 10000000, 0, 0⟩ : Vec) = ⟨0, 1 / 10000000, 0⟩) := by
  refine ⟨?_, ?_, Rot.rotZ (π / 2), Rot.isProper_rotZ _, ?_⟩
  · rw [Vec.norm_eq _ _ epsilon_pos, if_pos]
    simp [epsilon, abs_of_pos]; norm_num
  · rw [C14_norm_partial _ _ epsilon_pos (by right; left; simp)]
    simp [Vec.len]
  · ext <;> simp [Rot.rotZ]

/-- Never longer than the Euclidean length, never negative, zero on the zero vector. -/
theorem C14_norm_bounds (v : Vec) (eps : ℝ) (he : 0 < eps) :
    0 ≤ v.norm eps ∧ v.norm eps ≤ v.len ∧ v.len - v.norm eps ≤ 2 * eps ∧ (0 : Vec).norm eps = 0 := by
  refine ⟨Vec.norm_nonneg v eps he, Vec.norm_le_len v eps he, ?_, ?_⟩
  · rw [Vec.norm_eq v eps he]
    split_ifs with h
    · obtain ⟨h1, h2, h3⟩ := h
      have k1 : v.y ^ 2 ≤ eps ^ 2 := by
        rw [← sq_abs]; exact pow_le_pow_left₀ (abs_nonneg _) (h1.trans h3.le) 2
      have k2 : v.z ^ 2 ≤ eps ^ 2 := by
        rw [← sq_abs]; exact pow_le_pow_left₀ (abs_nonneg _) (h2.trans h3.le) 2
      have k3 : v.x ^ 2 ≤ eps ^ 2 := by
        rw [← sq_abs]; exact pow_le_pow_left₀ (abs_nonneg _) h3.le 2
      rw [sub_zero, Vec.len]
      rw [show 2 * eps = sqrt ((2 * eps) ^ 2) from (sqrt_sq (by positivity)).symm]
      exact sqrt_le_sqrt (by nlinarith)
    · linarith
  · rw [Vec.norm_eq _ _ he]; simp [he]

/-- Rotations preserve the length whenever `Norm` is exact on both sides. -/
theorem C14_norm_rotation (R : Rot) (h : R.IsProper) (v : Vec) (hv : 2 * epsilon ≤ v.len) :
    (R * v).norm = v.norm ∧ v.norm = v.len := by
  have hl : (R * v).len = v.len := by
    rw [Vec.len_eq_sqrt_dot, Vec.len_eq_sqrt_dot, h.dot]
  have key : ∀ w : Vec, 2 * epsilon ≤ w.len → w.norm = w.len := by
    intro w hw
    rw [Vec.norm_eq w epsilon epsilon_pos, if_neg]
    rintro ⟨h1, h2, h3⟩
    have he := epsilon_pos
    have hl := Vec.len_sq w
    have k1 : w.y ^ 2 ≤ epsilon ^ 2 := by
      rw [← sq_abs]; exact pow_le_pow_left₀ (abs_nonneg _) (h1.trans h3.le) 2
    have k2 : w.z ^ 2 ≤ epsilon ^ 2 := by
      rw [← sq_abs]; exact pow_le_pow_left₀ (abs_nonneg _) (h2.trans h3.le) 2
    have k3 : w.x ^ 2 ≤ epsilon ^ 2 := by
      rw [← sq_abs]; exact pow_le_pow_left₀ (abs_nonneg _) h3.le 2
    have k4 : (2 * epsilon) ^ 2 ≤ w.len ^ 2 := pow_le_pow_left₀ (by positivity) hw 2
    rw [hl, Vec.dot] at k4
    nlinarith [sq_nonneg epsilon, mul_pos he he]
  rw [key v hv, key (R * v) (by rw [hl]; exact hv), hl]
  exact ⟨rfl, rfl⟩

/-- `Normalize`: the vector left behind has unit length for every input. -/
theorem C14_normalize_unit (v : Vec) (eps : ℝ) (he : 0 < eps) :
    (v.normalize eps).1.dot (v.normalize eps).1 = 1 := Vec.normalize_dot v eps he

/-- `Normalize`: parallel to the input with the old length, or the documented fallback. -/
theorem C14_normalize_spec (v : Vec) (eps : ℝ) (he : 0 < eps) :
    (v.norm < eps → v.normalize eps = (⟨1, 0, 0⟩, 0)) ∧
    (eps ≤ v.norm → (v.normalize eps).2 = v.len ∧ v.len • (v.normalize eps).1 = v) := by
  constructor
  · intro h; unfold Vec.normalize; rw [if_pos h]
  · intro h
    have hp : 0 < v.norm := lt_of_lt_of_le he h
    have hn : v.norm = v.len := by
      have := Vec.norm_eq v epsilon epsilon_pos
      split_ifs at this with hc
      · rw [this] at hp; exact absurd hp (lt_irrefl _)
      · exact this
    have hne : v.len ≠ 0 := by rw [← hn]; exact hp.ne'
    unfold Vec.normalize
    rw [if_neg (not_lt.mpr h), hn]
    refine ⟨rfl, ?_⟩
    ext <;> simp <;> field_simp

example : epsilon ≤ (⟨0, 1, 0⟩ : Vec).norm := by
  rw [C14_norm_partial _ _ epsilon_pos (by right; left; simp)]
  simp [Vec.len, epsilon]; norm_num

/-- **Violation** of the documented meaning of `eps` ("if v is smaller than eps"): `Normalize(1e-10)` treats
`(1e-7,0,0)` as smaller than `1e-10`, because it measures the length with the default tolerance `1e-6`. -/
theorem C14_normalize_eps_violated :
    (⟨1 / 10000000, 0, 0⟩ : Vec).normalize (1 / 10 ^ 10) = (⟨1, 0, 0⟩, 0) ∧
    1 / 10 ^ 10 < (⟨1 / 10000000, 0, 0⟩ : Vec).len := by
  constructor
  · unfold Vec.normalize
    rw [C14_norm_violated.1, if_pos (by norm_num)]
  · have : (⟨1 / 10000000, 0, 0⟩ : Vec).len = 1 / 10000000 := by
      rw [Vec.len, show ((1 / 10000000 : ℝ) ^ 2 + 0 ^ 2 + 0 ^ 2) = (1 / 10000000) ^ 2 by ring, sqrt_sq (by norm_num)]
    rw [this]; norm_num

/-- `Vector2::Norm` is symmetric in its coordinates and exact outside the tolerance box. -/
theorem C14_norm2 (v : Vec2) (eps : ℝ) (he : 0 < eps) :
    v.norm eps = (if |v.x| < eps ∧ |v.y| < eps then 0 else sqrt (v.x ^ 2 + v.y ^ 2)) ∧
    (⟨v.y, v.x⟩ : Vec2).norm eps = v.norm eps := by
  have key : ∀ w : Vec2,
      w.norm eps = if |w.x| < eps ∧ |w.y| < eps then 0 else sqrt (w.x ^ 2 + w.y ^ 2) := by
    intro w
    unfold Vec2.norm
    split_ifs with h1 h2
    · rfl
    · have hx : w.x ≠ 0 := by
        intro h; rw [h, abs_zero] at h2; exact absurd h2 (not_lt.mpr (abs_nonneg _))
      rw [← sqrt_sq (abs_nonneg w.x), ← sqrt_mul (by positivity), sq_abs]
      congr 1; field_simp
    · have hy : w.y ≠ 0 := by
        intro h
        apply h1
        rw [h, abs_zero] at h2 ⊢
        exact ⟨lt_of_le_of_lt (not_lt.mp h2) he, he⟩
      rw [← sqrt_sq (abs_nonneg w.y), ← sqrt_mul (by positivity), sq_abs]
      congr 1; field_simp; ring
  refine ⟨key v, ?_⟩
  rw [key, key]
  simp only [and_comm, add_comm]

/-- `Vector2::Normalize` leaves a unit vector. -/
theorem C14_normalize2_unit (v : Vec2) (eps : ℝ) (he : 0 < eps) :
    (v.normalize eps).1.x ^ 2 + (v.normalize eps).1.y ^ 2 = 1 := by
  unfold Vec2.normalize
  dsimp only
  split_ifs with h
  · norm_num
  · have hp : 0 < v.norm := lt_of_lt_of_le he (not_lt.mp h)
    have hn : v.norm ^ 2 = v.x ^ 2 + v.y ^ 2 := by
      have := (C14_norm2 v epsilon epsilon_pos).1
      split_ifs at this with hc
      · rw [this] at hp; exact absurd hp (lt_irrefl _)
      · rw [this, sq_sqrt (by positivity)]
    simp only [Vec2.div_x, Vec2.div_y, div_pow, hn]
    rw [← add_div, div_self (by rw [← hn]; positivity)]

/-- The XY/YZ/ZX setters write the documented components. -/
theorem C14_set2D (t : Vec) (v : Vec2) :
    t.set2DXY v = ⟨v.x, v.y, 0⟩ ∧ t.set2DYZ v = ⟨0, v.x, v.y⟩ ∧ t.set2DZX v = ⟨v.y, 0, v.x⟩ :=
  ⟨rfl, rfl, rfl⟩

/-- **Violation.**  `Set2DPlane(F, v)` (documented: "a 3D vector resulting from a 2D vector in the XY plane of F") leaves
the vector untouched; already for the identity frame the result differs from the point. -/
theorem C14_set2DPlane_violated :
    (∀ (t : Vec) (F : Frame) (v : Vec2), t.set2DPlane F v = t) ∧
    ∃ (t : Vec) (F : Frame) (v : Vec2), F.IsProper ∧ t.set2DPlane F v ≠ F * (⟨v.x, v.y, 0⟩ : Vec) := by
  refine ⟨fun _ _ _ => rfl, 0, 1, ⟨1, 0⟩, Rot.IsProper.one, ?_⟩
  intro h
  have h1 : (1 : Frame) * (⟨1, 0, 0⟩ : Vec) = (1 : Rot) * (⟨1, 0, 0⟩ : Vec) + 0 := rfl
  have := congrArg Vec.x (h.trans h1)
  simp [Vec.set2DPlane] at this

/-- `Set3DPlane` is the projection onto the XY plane of the frame, in the coordinates of the frame: a point with coordinates
`(a, b, h)` in the frame gives `(a, b)`; the point of the plane with these coordinates differs from it by a multiple of the
normal. -/
theorem C14_set3DPlane (F : Frame) (hF : F.IsProper) :
    (∀ a b h : ℝ, Vec2.ofPlane F (F * (⟨a, b, h⟩ : Vec)) = ⟨a, b⟩) ∧
    ∀ v : Vec, ∃ h : ℝ, v = F * (⟨(Vec2.ofPlane F v).x, (Vec2.ofPlane F v).y, 0⟩ : Vec) + h • F.M.unitZ := by
  have fm : ∀ w : Vec, F * w = F.M * w + F.p := fun _ => rfl
  have key : ∀ w : Vec, F.invVec (F * w) = w := by
    intro w
    obtain ⟨⟨k0, k1, k2⟩, k01, k02, k12⟩ := hF.cols
    ext <;> simp [Frame.invVec, Rot.invVec, fm]
    · linear_combination w.x * k0 + w.y * k01 + w.z * k02
    · linear_combination w.y * k1 + w.x * k01 + w.z * k12
    · linear_combination w.z * k2 + w.x * k02 + w.y * k12
  have key2 : ∀ w : Vec, F * (F.invVec w) = w := by
    intro w
    obtain ⟨⟨k0, k1, k2⟩, k01, k02, k12⟩ := hF.rows
    ext <;> simp [Frame.invVec, Rot.invVec, fm]
    · linear_combination (w.x - F.p.x) * k0 + (w.y - F.p.y) * k01 + (w.z - F.p.z) * k02
    · linear_combination (w.y - F.p.y) * k1 + (w.x - F.p.x) * k01 + (w.z - F.p.z) * k12
    · linear_combination (w.z - F.p.z) * k2 + (w.x - F.p.x) * k02 + (w.y - F.p.y) * k12
  refine ⟨fun a b h => by simp only [Vec2.ofPlane, key], fun v => ⟨(F.invVec v).z, ?_⟩⟩
  conv_lhs => rw [← key2 v]
  ext <;> simp [Vec2.ofPlane, Rot.unitZ, fm] <;> ring

example : Vec2.ofPlane ⟨Rot.rotZ (Real.pi / 2), ⟨1, 0, 0⟩⟩ ⟨1, 2, 5⟩ = ⟨2, 0⟩ := by
  ext <;> norm_num [Vec2.ofPlane, Frame.invVec, Rot.invVec, Rot.rotZ]

end KDL
