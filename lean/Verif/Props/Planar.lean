import Verif.Lemmas.Angles

/-! C13: two dimensional rotations and frames. -/

namespace KDL
open Real

/-- A planar rotation in the sense of the class invariant `c² + s² = 1`. -/
def Rot2D.IsProper (R : Rot2D) : Prop := R.c ^ 2 + R.s ^ 2 = 1

@[simp] theorem Vec2.add_x (a b : Vec2) : (a + b).x = a.x + b.x := rfl
@[simp] theorem Vec2.add_y (a b : Vec2) : (a + b).y = a.y + b.y := rfl
@[simp] theorem Vec2.sub_x (a b : Vec2) : (a - b).x = a.x - b.x := rfl
@[simp] theorem Vec2.sub_y (a b : Vec2) : (a - b).y = a.y - b.y := rfl
@[simp] theorem Vec2.neg_x (a : Vec2) : (-a).x = -a.x := rfl
@[simp] theorem Vec2.neg_y (a : Vec2) : (-a).y = -a.y := rfl
@[simp] theorem Vec2.zero_x : (0 : Vec2).x = 0 := rfl
@[simp] theorem Vec2.zero_y : (0 : Vec2).y = 0 := rfl
@[simp] theorem Vec2.div_x (a : Vec2) (c : ℝ) : (a / c).x = a.x / c := rfl
@[simp] theorem Vec2.div_y (a : Vec2) (c : ℝ) : (a / c).y = a.y / c := rfl
@[simp] theorem Rot2D.mul_c (a b : Rot2D) : (a * b).c = a.c * b.c - a.s * b.s := rfl
@[simp] theorem Rot2D.mul_s (a b : Rot2D) : (a * b).s = a.s * b.c + a.c * b.s := rfl
@[simp] theorem Rot2D.one_c : (1 : Rot2D).c = 1 := rfl
@[simp] theorem Rot2D.one_s : (1 : Rot2D).s = 0 := rfl
@[simp] theorem Rot2D.app_x (R : Rot2D) (v : Vec2) : (R * v).x = v.x * R.c - v.y * R.s := rfl
@[simp] theorem Rot2D.app_y (R : Rot2D) (v : Vec2) : (R * v).y = v.x * R.s + v.y * R.c := rfl
@[simp] theorem Frame2D.mul_M (a b : Frame2D) : (a * b).M = a.M * b.M := rfl
@[simp] theorem Frame2D.mul_p (a b : Frame2D) : (a * b).p = a.M * b.p + a.p := rfl
@[simp] theorem Frame2D.one_M : (1 : Frame2D).M = 1 := rfl
@[simp] theorem Frame2D.one_p : (1 : Frame2D).p = 0 := rfl
@[simp] theorem Frame2D.app_eq (F : Frame2D) (v : Vec2) : F * v = F.M * v + F.p := rfl

/-- Composition adds angles. -/
theorem C13_rot_add (a b : ℝ) : Rot2D.ofAngle a * Rot2D.ofAngle b = Rot2D.ofAngle (a + b) := by
  ext
  · simp [Rot2D.ofAngle, cos_add]
  · simp [Rot2D.ofAngle, sin_add]

/-- The constructor produces proper rotations; products and inverses stay proper. -/
theorem C13_proper (a : ℝ) (R S : Rot2D) (hR : R.IsProper) (hS : S.IsProper) :
    (Rot2D.ofAngle a).IsProper ∧ (R * S).IsProper ∧ R.inv.IsProper := by
  unfold Rot2D.IsProper at *
  refine ⟨?_, ?_, ?_⟩
  · simpa [Rot2D.ofAngle] using cos_sq_add_sin_sq a
  · simp only [Rot2D.mul_c, Rot2D.mul_s]
    linear_combination (S.c ^ 2 + S.s ^ 2) * hR + hS
  · simpa [Rot2D.inv] using hR

/-- `Inverse` is a two-sided inverse and `Inverse(v)` applies it. -/
theorem C13_rot_inverse (R : Rot2D) (h : R.IsProper) (v : Vec2) :
    R * R.inv = 1 ∧ R.inv * R = 1 ∧ R.invVec v = R.inv * v ∧ R.invVec (R * v) = v ∧
    R * R.invVec v = v := by
  unfold Rot2D.IsProper at h
  refine ⟨?_, ?_, ?_, ?_, ?_⟩
  · ext <;> simp [Rot2D.inv]
    · linear_combination h
    · ring
  · ext <;> simp [Rot2D.inv]
    · linear_combination h
    · ring
  · ext <;> simp [Rot2D.inv, Rot2D.invVec]
  · ext <;> simp [Rot2D.invVec]
    · linear_combination v.x * h
    · linear_combination v.y * h
  · ext <;> simp [Rot2D.invVec]
    · linear_combination v.x * h
    · linear_combination v.y * h

/-- Composition acts as composed maps; associativity and commutativity of planar rotations. -/
theorem C13_rot_action (R S T : Rot2D) (v : Vec2) :
    (R * S) * v = R * (S * v) ∧ (R * S) * T = R * (S * T) ∧ R * S = S * R ∧ (1 : Rot2D) * v = v := by
  refine ⟨?_, ?_, ?_, ?_⟩ <;> ext <;> simp <;> ring

/-- `GetRot` recovers an angle in `(-π, π]`, and rebuilding from `GetRot` returns the rotation. -/
theorem C13_getRot (a : ℝ) (ha : -π < a ∧ a ≤ π) (R : Rot2D) (h : R.IsProper) :
    (Rot2D.ofAngle a).getRot = a ∧ Rot2D.ofAngle R.getRot = R ∧ -π < R.getRot ∧ R.getRot ≤ π := by
  have hr := atan2_range R.s R.c
  refine ⟨atan2_sin_cos ha, ?_, hr.1, hr.2⟩
  ext
  · exact cos_atan2_of_unit h
  · exact sin_atan2_of_unit h

/-- Frame2: group laws and action. -/
theorem C13_frame (F G H : Frame2D) (hF : F.M.IsProper) (v : Vec2) :
    (F * G) * H = F * (G * H) ∧ F * F.inv = 1 ∧ F.inv * F = 1 ∧ 1 * F = F ∧ F * 1 = F ∧
    (F * G) * v = F * (G * v) ∧ F.invVec v = F.inv * v ∧ F.invVec (F * v) = v := by
  have h := hF
  unfold Rot2D.IsProper at h
  refine ⟨?_, ?_, ?_, ?_, ?_, ?_, ?_, ?_⟩
  · ext <;> simp <;> ring
  · ext <;> simp [Frame2D.inv, Rot2D.inv]
    · linear_combination h
    · ring
    · linear_combination -F.p.x * h
    · linear_combination -F.p.y * h
  · ext <;> simp [Frame2D.inv, Rot2D.inv]
    · linear_combination h
    · ring
  · ext <;> simp
  · ext <;> simp
  · ext <;> simp <;> ring
  · ext <;> simp [Frame2D.inv, Frame2D.invVec, Rot2D.inv, Rot2D.invVec] <;> ring
  · ext <;> simp [Frame2D.invVec, Rot2D.invVec]
    · linear_combination v.x * h
    · linear_combination v.y * h

example : (Rot2D.ofAngle 1).IsProper := by
  simpa [Rot2D.ofAngle, Rot2D.IsProper] using cos_sq_add_sin_sq (1 : ℝ)

/-- **Violation.**  The matrix reported by `operator()(i,j)` is the transpose of the matrix that `operator*` applies:
for the quarter turn the action sends `(1,0)` to `(0,1)`, while the first column reported is `(0,-1)`. -/
theorem C13_entry_violated :
    ∃ (R : Rot2D) (v : Vec2), R.IsProper ∧
      (R * v).y ≠ R.entry 1 0 * v.x + R.entry 1 1 * v.y := by
  refine ⟨⟨0, 1⟩, ⟨1, 0⟩, by norm_num [Rot2D.IsProper], ?_⟩
  norm_num [Rot2D.entry]

/-- The same for the homogeneous matrix reported by `Frame2::operator()`. -/
theorem C13_frame_entry_violated :
    ∃ (F : Frame2D) (v : Vec2), F.M.IsProper ∧
      (F * v).y ≠ F.entry 1 0 * v.x + F.entry 1 1 * v.y + F.entry 1 2 := by
  refine ⟨⟨⟨0, 1⟩, ⟨0, 0⟩⟩, ⟨1, 0⟩, by norm_num [Rot2D.IsProper], ?_⟩
  norm_num [Frame2D.entry, Rot2D.entry, Vec2.get]

/-- What holds instead (full statement: `(R*v)_i = Σ_j R(i,j) v_j`): the reported matrix is that of the inverse, and it
agrees with the action exactly for `s = 0`.  Missing: agreement for `s ≠ 0`, refuted by `C13_entry_violated`. -/
theorem C13_entry_partial (R : Rot2D) :
    (∀ v : Vec2, R.invVec v = ⟨R.entry 0 0 * v.x + R.entry 0 1 * v.y, R.entry 1 0 * v.x + R.entry 1 1 * v.y⟩) ∧
    ((∀ v : Vec2, R * v = ⟨R.entry 0 0 * v.x + R.entry 0 1 * v.y, R.entry 1 0 * v.x + R.entry 1 1 * v.y⟩) ↔
      R.s = 0) := by
  constructor
  · intro v
    ext <;> simp [Rot2D.entry, Rot2D.invVec] <;> ring
  · constructor
    · intro h
      have := congrArg Vec2.y (h ⟨1, 0⟩)
      simp [Rot2D.entry] at this
      linarith
    · intro h v
      ext <;> simp [Rot2D.entry, h] <;> ring

/-- The homogeneous matrix of a planar frame (full statement: `F*v` is the product of that matrix with `(v,1)`): its last column is the
origin, its last row `(0,0,1)`; it acts as the frame does exactly for `s = 0`.  Missing: agreement for `s ≠ 0`, refuted by
`C13_frame_entry_violated`. -/
theorem C13_frame_entry_partial (F : Frame2D) :
    (F.entry 0 2 = F.p.x ∧ F.entry 1 2 = F.p.y) ∧ (F.entry 2 0 = 0 ∧ F.entry 2 1 = 0 ∧ F.entry 2 2 = 1) ∧
    (F.p.get 0 = F.p.x ∧ F.p.get 1 = F.p.y) ∧
    ((∀ v : Vec2, F * v = ⟨F.entry 0 0 * v.x + F.entry 0 1 * v.y + F.entry 0 2, F.entry 1 0 * v.x + F.entry 1 1 * v.y + F.entry 1 2⟩) ↔
      F.M.s = 0) := by
  refine ⟨⟨by simp [Frame2D.entry, Vec2.get], by simp [Frame2D.entry, Vec2.get]⟩,
    ⟨by simp [Frame2D.entry], by simp [Frame2D.entry], by simp [Frame2D.entry]⟩, ⟨by simp [Vec2.get], by simp [Vec2.get]⟩, ?_⟩
  constructor
  · intro h
    have := congrArg Vec2.y (h ⟨1, 0⟩)
    simp [Frame2D.entry, Rot2D.entry, Vec2.get] at this
    linarith
  · intro h v
    ext <;> simp [Frame2D.entry, Rot2D.entry, Vec2.get, h] <;> ring

/-- Lifting to 3D: a 2D point placed in the XY/YZ/ZX plane and projected back is unchanged. -/
theorem C13_lift (t : Vec) (v : Vec2) :
    Vec2.ofXY (t.set2DXY v) = v ∧ Vec2.ofYZ (t.set2DYZ v) = v ∧ Vec2.ofZX (t.set2DZX v) = v := by
  refine ⟨?_, ?_, ?_⟩ <;> rfl

end KDL
