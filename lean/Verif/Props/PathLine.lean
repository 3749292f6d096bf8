import Verif.Lemmas.Path
import Mathlib.Analysis.Real.Pi.Bounds

/-!
# C66, C60: rotational interpolation and straight lines

The documented meaning is stated directly: the interpolation starts and ends where it was told, `Vel` and `Acc` are the
derivatives of `Pos`, and the path parameter `s` measures the longer of the translation and of the rotation scaled by
`eqradius`.
-/

noncomputable section
namespace KDL
open Real

/-! ## C66: `RotationalInterpolation_SingleAxis` -/

/-- The interpolation starts at `start`. -/
theorem C66_start (start stop : Rot) : (RotInterp.setStartEnd start stop).pos 0 = start := by
  unfold RotInterp.setStartEnd RotInterp.pos
  dsimp only
  rw [Rot.rot2_zero, mul_one]

/-- The interpolation ends at `stop` when the parameter reaches `Angle()`.  Partial: a relative rotation inside the
tolerance band of `GetRotAngle` (skew part below `1e-6` but not zero) is excluded; see `C66_stop_violated`. -/
theorem C66_stop_partial (start stop : Rot) (h0 : start.IsProper) (h1 : stop.IsProper)
    (hr : (start.inv * stop).Resolved) :
    ∃ a, (RotInterp.setStartEnd start stop).angle = some a ∧ 0 ≤ a ∧ a ≤ π ∧
      (RotInterp.setStartEnd start stop).pos a = stop := by
  refine ⟨(start.inv * stop).getRotAngle.2, rfl, (C08_angle_range _ _).1, (C08_angle_range _ _).2, ?_⟩
  unfold RotInterp.setStartEnd RotInterp.pos
  dsimp only
  rw [Rot.resolved_roundtrip _ (h0.inv.mul h1) hr, ← mul_assoc, h0.1, one_mul]

/-- A rotation by `1e-7` about `x`, inside the tolerance band. -/
def tinyTurn : Rot := Rot.rot2 ⟨1, 0, 0⟩ (1 / 10 ^ 7)

theorem tinyTurn_proper : tinyTurn.IsProper := Rot.isProper_rot2 _ (by simp [Vec.dot]) _

/-- Without that hypothesis the claim fails: a turn by `1e-7` is not interpolated at all. -/
theorem C66_stop_violated :
    tinyTurn.IsProper ∧ (RotInterp.setStartEnd 1 tinyTurn).angle = some 0 ∧
      (RotInterp.setStartEnd 1 tinyTurn).pos 0 ≠ tinyTurn := by
  have hs : 0 < sin (1 / 10 ^ 7 : ℝ) :=
    sin_pos_of_pos_of_lt_pi (by norm_num) (lt_trans (by norm_num) pi_gt_three)
  have hs2 : sin (1 / 10 ^ 7 : ℝ) < 1 / 10 ^ 7 := sin_lt (by norm_num)
  have hc : 1 - (1 / 10 ^ 7 : ℝ) ^ 2 / 2 ≤ cos (1 / 10 ^ 7 : ℝ) := one_sub_sq_div_two_le_cos
  refine ⟨tinyTurn_proper, ?_, ?_⟩
  · have he : epsilon = 1 / 10 ^ 6 := by norm_num [epsilon]
    have h1 : (1 : Rot).inv * tinyTurn = tinyTurn := by
      have : (1 : Rot).inv = 1 := by ext <;> simp
      rw [this, one_mul]
    unfold RotInterp.setStartEnd
    dsimp only
    rw [h1]
    generalize hx : (1 / 10 ^ 7 : ℝ) = x at *
    have hk : tinyTurn = ⟨1, 0, 0, 0, cos x, -sin x, 0, sin x, cos x⟩ := by
      unfold tinyTurn; rw [hx]; ext <;> simp [Rot.rot2]
    rw [hk]
    unfold Rot.getRotAngle
    dsimp only
    have hx' : x = 1 / 10 ^ 7 := hx.symm
    have hx2 : x ^ 2 / 2 ≤ 1 / 10 ^ 14 := by rw [hx']; norm_num
    have hc1 := cos_le_one x
    have z1 : |(0 : ℝ) - 0| < epsilon := by rw [he]; norm_num
    have z2 : |(0 : ℝ) + 0| < epsilon * 10 := by rw [he]; norm_num
    rw [if_pos ⟨z1, z1, by rw [he, abs_lt]; constructor <;> linarith⟩,
      if_pos ⟨z2, z2, by rw [he, abs_lt]; constructor <;> linarith, by rw [he, abs_lt]; constructor <;> linarith⟩]
  · rw [C66_start]
    intro h
    have := congrArg Rot.m21 h
    simp [tinyTurn, Rot.rot2] at this
    simp at hs
    linarith

/-- `Vel` is the angular velocity of `Pos` along any parameter motion `theta(t)`. -/
theorem C66_vel (start stop : Rot) (h0 : start.IsProper) (h1 : stop.IsProper) (hr : (start.inv * stop).Resolved)
    (theta : ℝ → ℝ) (t thetad : ℝ) (ht : HasDerivAt theta thetad t) :
    Rot.HasAngVel (fun t => (RotInterp.setStartEnd start stop).pos (theta t))
      ((RotInterp.setStartEnd start stop).vel (theta t) thetad) t := by
  have hu := Rot.resolved_axis _ (h0.inv.mul h1) hr
  have := (Rot.HasAngVel.const (t := t) start).mul (Rot.HasAngVel.rot2 _ hu ht) h0
  exact this.congr_vel (by simp [RotInterp.setStartEnd, RotInterp.vel])

/-- `Acc` is the derivative of `Vel` along any parameter motion. -/
theorem C66_acc (start stop : Rot) (theta thetad : ℝ → ℝ) (t thetadd : ℝ) (ht : HasDerivAt thetad thetadd t) :
    Vec.HasDeriv (fun t => (RotInterp.setStartEnd start stop).vel (theta t) (thetad t))
      ((RotInterp.setStartEnd start stop).acc (theta t) (thetad t) thetadd) t := by
  have := (Rot.HasAngVel.const (t := t) start).app
    (Vec.HasDeriv.smul ht (Vec.HasDeriv.const (t := t) (start.inv * stop).getRotAngle.1))
  refine this.congr_deriv ?_
  simp only [RotInterp.setStartEnd, RotInterp.acc, RotInterp.vel]
  ext <;> simp

/-- FULL PROPERTY "a clone is the same interpolation" fails: `Clone` (rotational_interpolation_sa.cpp:83) returns a new
object that was never set.  It stays at the identity with zero velocity, and its angle is an indeterminate value; the
paths therefore rebuild the interpolation in their own `Clone` (`C60_clone_partial`). -/
theorem C66_clone_violated (o : RotInterp) :
    o.clone.angle = none ∧ (∀ theta, o.clone.vel theta 1 = 0) ∧ o.clone.pos 0 = 1 ∧
    (RotInterp.setStartEnd (Rot.rotZ (π / 2)) 1).clone.pos 0 ≠ (RotInterp.setStartEnd (Rot.rotZ (π / 2)) 1).pos 0 := by
  have h1 : ∀ o : RotInterp, o.clone.pos 0 = 1 := by
    intro o
    show (1 : Rot) * Rot.rot2 0 0 = 1
    ext <;> simp [Rot.rot2]
  refine ⟨rfl, fun theta => ?_, h1 o, ?_⟩
  · show (1 : Rot) * ((1 : ℝ) • (0 : Vec)) = 0
    ext <;> simp
  · rw [h1, C66_start]
    intro h
    have := congrArg Rot.m11 h
    simp [Rot.rotZ] at this

/-- Every intermediate orientation is a rotation, at the given angle from the start. -/
theorem C66_proper (start stop : Rot) (h0 : start.IsProper) (h1 : stop.IsProper) (hr : (start.inv * stop).Resolved)
    (theta : ℝ) : ((RotInterp.setStartEnd start stop).pos theta).IsProper :=
  h0.mul (Rot.isProper_rot2 _ (Rot.resolved_axis _ (h0.inv.mul h1) hr) theta)

/-- The hypotheses hold for a quarter turn. -/
theorem quarter_resolved : ((1 : Rot).inv * Rot.rotZ (π / 2)).Resolved := by
  left
  unfold Rot.Regular
  rintro ⟨h, -, -⟩
  simp [Rot.rotZ] at h
  norm_num [epsilon] at h

theorem rotZ_proper (a : ℝ) : (Rot.rotZ a).IsProper := by
  have : Rot.rotZ a = Rot.rot2 ⟨0, 0, 1⟩ a := by ext <;> simp [Rot.rotZ, Rot.rot2]
  rw [this]; exact Rot.isProper_rot2 _ (by simp [Vec.dot]) _

example : ∃ start stop : Rot, start.IsProper ∧ stop.IsProper ∧ (start.inv * stop).Resolved ∧ start ≠ stop :=
  ⟨1, Rot.rotZ (π / 2), Rot.IsProper.one, rotZ_proper _, quarter_resolved, by
    intro h; have := congrArg Rot.m00 h; simp [Rot.rotZ] at this⟩

/-! ## C60: `Path_Line` -/

/-- The hypotheses under which a line is numerically meaningful: the frames are proper, the displacement and the relative
rotation are zero or outside the tolerance bands. -/
structure LineOk (A B : Frame) : Prop where
  start : A.IsProper
  stop : B.IsProper
  disp : (B.p - A.p).Resolved
  turn : (A.M.inv * B.M).Resolved

/-- The line starts at its start frame. -/
theorem C60_start (A B : Frame) (r : ℝ) : (PathLine.ofFrames A B r).pos 0 = A := by
  unfold PathLine.pos PathLine.ofFrames PathLine.build
  dsimp only
  rw [zero_mul, C66_start]
  ext <;> simp

/-- The path length is the larger of the distance and of the angle times `eqradius`. -/
theorem C60_length (A B : Frame) (r : ℝ) (hp : (B.p - A.p).Resolved) :
    (PathLine.ofFrames A B r).pathlength = max ((B.p - A.p).len) ((A.M.inv * B.M).getRotAngle.2 * r) := by
  unfold PathLine.ofFrames PathLine.build PathLine.scales
  dsimp only
  rw [(Vec.normalize_resolved _ hp).1]
  have hn := Vec.len_nonneg (B.p - A.p)
  have ha := (C08_angle_range (A.M.inv * B.M) epsilon).1
  split_ifs with h1 h2
  · rw [max_eq_right h1.2.le]
  · dsimp only
    rw [max_eq_left]
    by_cases h : (A.M.inv * B.M).getRotAngle.2 = 0
    · rw [h, zero_mul]; exact hn
    · exact not_lt.mp fun k => h1 ⟨h, k⟩
  · dsimp only
    simp only [not_not] at h2
    rw [h2, max_eq_left]
    by_cases h : (A.M.inv * B.M).getRotAngle.2 = 0
    · rw [h, zero_mul]
    · exact not_lt.mp fun k => h1 ⟨h, h2 ▸ k⟩

private theorem scales_spec (a d r : ℝ) (_ha : 0 ≤ a) (hd : 0 ≤ d) (h : 0 < r ∨ d ≠ 0) :
    (PathLine.scales a d r).1 * (PathLine.scales a d r).2.2 = d ∧
      (PathLine.scales a d r).1 * (PathLine.scales a d r).2.1 = a := by
  unfold PathLine.scales
  split_ifs with h1 h2
  · have : 0 < a * r := lt_of_le_of_lt hd h1.2
    have ha0 : a ≠ 0 := h1.1
    have hr0 : r ≠ 0 := by rintro rfl; simp at this
    dsimp only
    constructor <;> field_simp
  · dsimp only
    constructor
    · ring
    · field_simp
  · dsimp only
    simp only [not_not] at h2
    refine ⟨by simp [h2], ?_⟩
    rcases h with h | h
    · by_contra k
      have ka : a ≠ 0 := fun e => k (by simp [e])
      exact h1 ⟨ka, by rw [h2]; exact mul_pos (lt_of_le_of_ne _ha (Ne.symm ka)) h⟩
    · exact absurd h2 h

/-- The line ends at its end frame when `s` reaches `PathLength()`.  Partial: needs `eqradius > 0` or a translation, and
resolved displacement and rotation (see `C60_eqradius_violated`, `C66_stop_violated`). -/
theorem C60_stop_partial (A B : Frame) (r : ℝ) (h : LineOk A B) (hr : 0 < r ∨ A.p ≠ B.p) :
    (PathLine.ofFrames A B r).pos (PathLine.ofFrames A B r).pathlength = B := by
  obtain ⟨hn1, hn2⟩ := Vec.normalize_resolved _ h.disp
  have hsc := scales_spec (A.M.inv * B.M).getRotAngle.2 (B.p - A.p).normalize.2 r (C08_angle_range _ _).1
    (Vec.normalize_nonneg _) (hr.imp_right fun k e => k (by
      have h0 : B.p - A.p = 0 := by rw [← hn2, e, zero_smul ℝ]
      exact (sub_eq_zero.mp h0).symm))
  obtain ⟨a, ha, -, -, hs⟩ := C66_stop_partial A.M B.M h.start h.stop h.turn
  have ha' : (A.M.inv * B.M).getRotAngle.2 = a := Option.some.inj ha
  unfold PathLine.ofFrames PathLine.build PathLine.pos
  dsimp only
  rw [hsc.1, hsc.2, ha', hs, hn2]
  have : A.p + (B.p - A.p) = B.p := by abel
  rw [this]

/-- With `eqradius = 0` and a pure rotation the path length is zero and the end orientation is never reached. -/
theorem C60_eqradius_violated :
    let A : Frame := 1
    let B : Frame := ⟨Rot.rotZ (π / 2), 0⟩
    LineOk A B ∧ (PathLine.ofFrames A B 0).pathlength = 0 ∧ (PathLine.ofFrames A B 0).pos 0 ≠ B := by
  intro A B
  refine ⟨⟨Rot.IsProper.one, rotZ_proper _, Or.inl (by ext <;> simp [A, B]), quarter_resolved⟩, ?_, ?_⟩
  · rw [C60_length _ _ _ (Or.inl (by ext <;> simp [A, B]))]
    have : B.p - A.p = 0 := by ext <;> simp [A, B]
    rw [this, Vec.len_zero]; simp
  · rw [C60_start]
    intro h
    have := congrArg (fun F : Frame => F.M.m00) h
    simp [A, B, Rot.rotZ] at this

/-- `Vel(s, ds)` is the twist of the moving frame `Pos(s(t))`. -/
theorem C60_vel (A B : Frame) (r : ℝ) (h0 : A.IsProper) (h1 : B.IsProper) (hr : (A.M.inv * B.M).Resolved)
    (s : ℝ → ℝ) (t sd : ℝ) (hs : HasDerivAt s sd t) :
    Frame.HasTwist (fun t => (PathLine.ofFrames A B r).pos (s t)) ((PathLine.ofFrames A B r).vel (s t) sd) t := by
  constructor
  · refine ((Vec.HasDeriv.const A.p).add ((Vec.HasDeriv.smul (hs.mul_const _) (Vec.HasDeriv.const _)))).congr_deriv ?_
    simp only [PathLine.vel, PathLine.ofFrames, PathLine.build]
    ext <;> simp
  · exact C66_vel A.M B.M h0 h1 hr _ t _ (hs.mul_const _)

/-- `Acc(s, ds, dds)` is the derivative of `Vel(s(t), ds(t))`. -/
theorem C60_acc (A B : Frame) (r : ℝ) (s sd : ℝ → ℝ) (t sdd : ℝ) (hs : HasDerivAt sd sdd t) :
    Twist.HasDeriv (fun t => (PathLine.ofFrames A B r).vel (s t) (sd t)) ((PathLine.ofFrames A B r).acc (s t) (sd t) sdd) t := by
  constructor
  · refine ((Vec.HasDeriv.smul (hs.mul_const _) (Vec.HasDeriv.const _))).congr_deriv ?_
    simp only [PathLine.acc, PathLine.ofFrames, PathLine.build]
    ext <;> simp
  · exact C66_acc A.M B.M (fun t => s t * (PathLine.ofFrames A B r).scalerot) _ t _ (hs.mul_const _)

/-- Meaning of `eqradius`: along a path of positive length neither the linear speed nor the speed of a point at distance
`eqradius` from the rotation axis exceeds `|ds|`, and one of the two is equal to it. -/
theorem C60_speed (A B : Frame) (r : ℝ) (hr0 : 0 ≤ r) (h : LineOk A B) (hl : (PathLine.ofFrames A B r).pathlength ≠ 0)
    (s sd : ℝ) :
    let v := (PathLine.ofFrames A B r).vel s sd
    v.vel.len ≤ |sd| ∧ r * v.rot.len ≤ |sd| ∧ (v.vel.len = |sd| ∨ r * v.rot.len = |sd|) := by
  have hlen := C60_length A B r h.disp
  intro v
  have hu := Rot.resolved_axis (A.M.inv * B.M) (Rot.IsProper.mul (Rot.IsProper.inv h.start) h.stop) h.turn
  have hn := Vec.normalize_unit (B.p - A.p)
  have hl1 : v.vel.len = |sd * (PathLine.ofFrames A B r).scalelin| := Vec.len_smul_unit _ _ hn
  have hl2 : v.rot.len = |sd * (PathLine.ofFrames A B r).scalerot| := by
    have : v.rot = A.M * ((sd * (PathLine.ofFrames A B r).scalerot) • (A.M.inv * B.M).getRotAngle.1) := rfl
    rw [this, Rot.IsProper.len h.start, Vec.len_smul_unit _ _ hu]
  rw [hl1, hl2]
  clear_value v
  clear hl1 hl2 hlen v
  revert hl
  unfold PathLine.ofFrames PathLine.build PathLine.scales
  dsimp only
  have hd := Vec.normalize_nonneg (B.p - A.p)
  have ha := (C08_angle_range (A.M.inv * B.M) epsilon).1
  generalize (B.p - A.p).normalize.2 = d at *
  generalize (A.M.inv * B.M).getRotAngle.2 = a at *
  have hs := abs_nonneg sd
  split_ifs with h1 h2
  · intro _
    dsimp only
    have har : 0 < a * r := lt_of_le_of_lt hd h1.2
    have hr1 : 0 < r := lt_of_le_of_ne hr0 (by rintro rfl; simp at har)
    have e1 : |d / (a * r)| ≤ 1 := by
      rw [abs_of_nonneg (div_nonneg hd har.le), div_le_one har]; exact h1.2.le
    have e2 : r * |sd * (1 / r)| = |sd| := by
      rw [abs_mul, abs_of_pos (one_div_pos.mpr hr1)]; field_simp
    refine ⟨?_, e2.le, Or.inr e2⟩
    rw [abs_mul]; nlinarith
  · intro _
    dsimp only
    have hd1 : 0 < d := lt_of_le_of_ne hd (Ne.symm h2)
    have har : a * r ≤ d := by
      by_cases k : a = 0
      · rw [k, zero_mul]; exact hd
      · exact not_lt.mp fun q => h1 ⟨k, q⟩
    have e1 : |sd * 1| = |sd| := by rw [mul_one]
    refine ⟨e1.le, ?_, Or.inl e1⟩
    have e2 : r * |sd * (a / d)| = |sd| * (a * r / d) := by
      rw [abs_mul, abs_of_nonneg (div_nonneg ha hd)]; ring
    rw [e2]
    have : a * r / d ≤ 1 := (div_le_one hd1).mpr har
    nlinarith
  · intro hl
    exact absurd rfl hl

/-- The origin moves on the straight line from start to end: at parameter `s` it has covered the fraction
`s / PathLength()`. -/
theorem C60_straight (A B : Frame) (r : ℝ) (hp : (B.p - A.p).Resolved) (hr : 0 < r ∨ A.p ≠ B.p)
    (hl : (PathLine.ofFrames A B r).pathlength ≠ 0) (s : ℝ) :
    ((PathLine.ofFrames A B r).pos s).p = A.p + (s / (PathLine.ofFrames A B r).pathlength) • (B.p - A.p) := by
  obtain ⟨hn1, hn2⟩ := Vec.normalize_resolved _ hp
  have hsc := (scales_spec (A.M.inv * B.M).getRotAngle.2 (B.p - A.p).normalize.2 r (C08_angle_range _ _).1
    (Vec.normalize_nonneg _) (hr.imp_right fun k e => k (by
      have h0 : B.p - A.p = 0 := by rw [← hn2, e, zero_smul ℝ]
      exact (sub_eq_zero.mp h0).symm))).1
  have hk : (PathLine.ofFrames A B r).pathlength * (PathLine.ofFrames A B r).scalelin = (B.p - A.p).normalize.2 := hsc
  have h1 : ((PathLine.ofFrames A B r).pos s).p =
    A.p + (s * (PathLine.ofFrames A B r).scalelin) • (B.p - A.p).normalize.1 := rfl
  rw [h1]
  conv_rhs => rw [← hn2, ← hk, smul_smul]
  congr 2
  field_simp

/-- The orientation turns about one fixed axis: at parameter `s` it has covered the fraction `s / PathLength()` of the
turn between the end frames. -/
theorem C60_axis (A B : Frame) (r : ℝ) (h : LineOk A B) (hr : 0 < r ∨ A.p ≠ B.p)
    (hl : (PathLine.ofFrames A B r).pathlength ≠ 0) :
    ∃ (a : Vec) (θ : ℝ), a.dot a = 1 ∧ 0 ≤ θ ∧ θ ≤ π ∧ B.M = A.M * Rot.rot2 a θ ∧
      ∀ s, ((PathLine.ofFrames A B r).pos s).M =
        A.M * Rot.rot2 a (s / (PathLine.ofFrames A B r).pathlength * θ) := by
  obtain ⟨hn1, hn2⟩ := Vec.normalize_resolved _ h.disp
  have hsc := (scales_spec (A.M.inv * B.M).getRotAngle.2 (B.p - A.p).normalize.2 r (C08_angle_range _ _).1
    (Vec.normalize_nonneg _) (hr.imp_right fun k e => k (by
      have h0 : B.p - A.p = 0 := by rw [← hn2, e, zero_smul ℝ]
      exact (sub_eq_zero.mp h0).symm))).2
  have hk : (PathLine.ofFrames A B r).pathlength * (PathLine.ofFrames A B r).scalerot =
    (A.M.inv * B.M).getRotAngle.2 := hsc
  have hS : (A.M.inv * B.M).IsProper := Rot.IsProper.mul (Rot.IsProper.inv h.start) h.stop
  refine ⟨(A.M.inv * B.M).getRotAngle.1, (A.M.inv * B.M).getRotAngle.2,
    Rot.resolved_axis _ hS h.turn, (C08_angle_range _ _).1, (C08_angle_range _ _).2,
    ?_, fun s => ?_⟩
  · rw [Rot.resolved_roundtrip _ hS h.turn, ← mul_assoc, h.start.1, one_mul]
  · have h1 : ((PathLine.ofFrames A B r).pos s).M =
      A.M * Rot.rot2 (A.M.inv * B.M).getRotAngle.1 (s * (PathLine.ofFrames A B r).scalerot) := rfl
    rw [h1, ← hk]
    congr 2
    field_simp

/-- `LengthToS` gives the parameter at which the origin has travelled the given physical length; undefined exactly when
the path does not translate. -/
theorem C60_lengthToS (A B : Frame) (r len : ℝ) (hp : (B.p - A.p).Resolved) (hne : A.p ≠ B.p) (h0 : 0 ≤ len) :
    ∃ s, (PathLine.ofFrames A B r).lengthToS len = some s ∧
      (((PathLine.ofFrames A B r).pos s).p - A.p).len = len := by
  obtain ⟨hn1, hn2⟩ := Vec.normalize_resolved _ hp
  have hd : (B.p - A.p).normalize.2 ≠ 0 := fun e => hne (by
      have h0 : B.p - A.p = 0 := by rw [← hn2, e, zero_smul ℝ]
      exact (sub_eq_zero.mp h0).symm)
  have hsl : (PathLine.ofFrames A B r).scalelin ≠ 0 := by
    intro e
    have hsc := (scales_spec (A.M.inv * B.M).getRotAngle.2 (B.p - A.p).normalize.2 r (C08_angle_range _ _).1
      (Vec.normalize_nonneg _) (Or.inr hd)).1
    have e' : (PathLine.scales (A.M.inv * B.M).getRotAngle.2 (B.p - A.p).normalize.2 r).2.2 = 0 := e
    rw [e', mul_zero] at hsc
    exact hd hsc.symm
  refine ⟨len / (PathLine.ofFrames A B r).scalelin, ?_, ?_⟩
  · unfold PathLine.lengthToS; rw [if_neg hsl]
  · have h1 : ((PathLine.ofFrames A B r).pos (len / (PathLine.ofFrames A B r).scalelin)).p - A.p =
      (len / (PathLine.ofFrames A B r).scalelin * (PathLine.ofFrames A B r).scalelin) • (B.p - A.p).normalize.1 := by
      have : ((PathLine.ofFrames A B r).pos (len / (PathLine.ofFrames A B r).scalelin)).p = A.p +
        (len / (PathLine.ofFrames A B r).scalelin * (PathLine.ofFrames A B r).scalelin) • (B.p - A.p).normalize.1 := rfl
      rw [this]; abel
    rw [h1, div_mul_cancel₀ _ hsl, Vec.len_smul_unit _ _ (Vec.normalize_unit _), abs_of_nonneg h0]

/-- `Clone` yields the same path (all observable members). -/
theorem C60_clone_partial (A B : Frame) (r : ℝ) (h : LineOk A B) (hr : 0 < r ∨ A.p ≠ B.p) :
    (PathLine.ofFrames A B r).clone = PathLine.ofFrames A B r := by
  have h0 : (PathLine.ofFrames A B r).orient.pos 0 = A.M := C66_start _ _
  have h1 := congrArg Frame.M (C60_stop_partial A B r h hr)
  have h1' : (PathLine.ofFrames A B r).orient.pos
    ((PathLine.ofFrames A B r).pathlength * (PathLine.ofFrames A B r).scalerot) = B.M := h1
  unfold PathLine.clone
  rw [h0, h1']
  rfl

/-- `Path_Point` (path_point.cpp:47–72) has length zero and rests at its frame: `Vel` is the twist of `Pos` and `Acc` its
derivative along every parameter motion. -/
theorem C60_point (F : Frame) (sd sdd : ℝ → ℝ) (s : ℝ → ℝ) (t : ℝ) :
    (pathPoint F).length = 0 ∧ (pathPoint F).pos 0 = F ∧
    Frame.HasTwist (fun u => (pathPoint F).pos (s u)) ((pathPoint F).vel (s t) (sd t)) t ∧
    Twist.HasDeriv (fun u => (pathPoint F).vel (s u) (sd u)) ((pathPoint F).acc (s t) (sd t) (sdd t)) t :=
  ⟨rfl, rfl, ⟨Vec.HasDeriv.const F.p, Rot.HasAngVel.const F.M⟩, ⟨Vec.HasDeriv.const 0, Vec.HasDeriv.const 0⟩⟩

/-- The twist constructor: position displaced by `vel`, orientation turned about `rot` by `|rot|`.  `vel` acts in base
coordinates but `rot` in the start frame, so for a twist in base coordinates the claim needs a rotation axis that the
start orientation leaves unchanged (see `C60_twist_violated`). -/
theorem C60_twist_partial (A : Frame) (t : Twist) (r : ℝ)
    (hfix : A.M * Rot.rot t.rot t.rot.norm = Rot.rot t.rot t.rot.norm * A.M)
    (h : LineOk A ⟨Rot.rot t.rot t.rot.norm * A.M, A.p + t.vel⟩) (hr : 0 < r ∨ t.vel ≠ 0) :
    (PathLine.ofTwist A t r).pos 0 = A ∧
      (PathLine.ofTwist A t r).pos (PathLine.ofTwist A t r).pathlength =
        ⟨Rot.rot t.rot t.rot.norm * A.M, A.p + t.vel⟩ := by
  have e : PathLine.ofTwist A t r = PathLine.ofFrames A ⟨Rot.rot t.rot t.rot.norm * A.M, A.p + t.vel⟩ r := by
    unfold PathLine.ofTwist PathLine.ofFrames
    rw [← hfix]; rfl
  rw [e]
  refine ⟨C60_start _ _ _, C60_stop_partial _ _ _ h (hr.imp_right fun k e => k ?_)⟩
  have e' : A.p = A.p + t.vel := e
  have : t.vel = (A.p + t.vel) - A.p := by abel
  rw [this, ← e', sub_self]

/-- A half turn about the base `x` axis requested for a frame that is turned by 90° about `z`: the line turns about the
base `y` axis instead. -/
theorem C60_twist_violated :
    let A : Frame := ⟨Rot.rotZ (π / 2), 0⟩
    let t : Twist := ⟨0, ⟨π, 0, 0⟩⟩
    A.IsProper ∧ (PathLine.ofTwist A t 1).orient.stop ≠ Rot.rot t.rot t.rot.norm * A.M ∧
      (PathLine.ofTwist A t 1).orient.stop = Rot.rot ⟨0, π, 0⟩ t.rot.norm * A.M := by
  intro A t
  have hpi := pi_gt_three
  have hm : ¬ (π < epsilon) := by norm_num [epsilon]; linarith
  have hm2 : ¬ (|π| < epsilon) := by rwa [abs_of_pos pi_pos]
  have hn : t.rot.norm = π := by
    have := Vec.norm_eq t.rot epsilon epsilon_pos
    rw [if_neg (by intro hc; exact hm2 hc.2.2)] at this
    rw [this]
    simp [Vec.len, t, sqrt_sq pi_pos.le]
  have hst : (PathLine.ofTwist A t 1).orient.stop = A.M * Rot.rot t.rot t.rot.norm := rfl
  have hl1 : (⟨π, 0, 0⟩ : Vec).len = π := by simp [Vec.len, sqrt_sq pi_pos.le]
  have hl2 : (⟨0, π, 0⟩ : Vec).len = π := by simp [Vec.len, sqrt_sq pi_pos.le]
  have hx : (⟨π, 0, 0⟩ : Vec).normalize.1 = ⟨1, 0, 0⟩ := by
    have := (Vec.normalize_of_le ⟨π, 0, 0⟩ (Vec.norm_of_comp _ (Or.inl (not_lt.mp hm2)))).1
    rw [this, hl1]; ext <;> simp [pi_ne_zero]
  have hy : (⟨0, π, 0⟩ : Vec).normalize.1 = ⟨0, 1, 0⟩ := by
    have := (Vec.normalize_of_le ⟨0, π, 0⟩ (Vec.norm_of_comp _ (Or.inr (Or.inl (not_lt.mp hm2))))).1
    rw [this, hl2]; ext <;> simp [pi_ne_zero]
  have r1 : Rot.rot t.rot π = ⟨1, 0, 0, 0, -1, 0, 0, 0, -1⟩ := by
    unfold Rot.rot; simp only [t]; rw [hx]; ext <;> simp [Rot.rot2]
  have r2 : Rot.rot ⟨0, π, 0⟩ π = ⟨-1, 0, 0, 0, 1, 0, 0, 0, -1⟩ := by
    unfold Rot.rot; rw [hy]; ext <;> simp [Rot.rot2]
  have rA : A.M = ⟨0, -1, 0, 1, 0, 0, 0, 0, 1⟩ := by ext <;> simp [A, Rot.rotZ]
  refine ⟨rotZ_proper _, ?_, ?_⟩
  · rw [hst, hn, r1, rA]
    intro h
    have := congrArg Rot.m01 h
    simp at this; norm_num at this
  · rw [hst, hn, r1, r2, rA]
    ext <;> simp

/-- The hypotheses hold for a screw-like line. -/
theorem lineOk_example : LineOk (1 : Frame) ⟨Rot.rotZ (π / 2), ⟨1, 0, 0⟩⟩ :=
  ⟨Rot.IsProper.one, rotZ_proper _, Or.inr (Or.inl (by norm_num [epsilon])), quarter_resolved⟩

example : ∃ (A B : Frame) (r : ℝ), LineOk A B ∧ 0 < r ∧ A.p ≠ B.p ∧ (PathLine.ofFrames A B r).pathlength ≠ 0 := by
  refine ⟨1, ⟨Rot.rotZ (π / 2), ⟨1, 0, 0⟩⟩, 1, lineOk_example, one_pos, ?_, ?_⟩
  · intro h; have := congrArg Vec.x h; simp at this
  · rw [C60_length _ _ _ lineOk_example.disp]
    have : (((⟨1, 0, 0⟩ : Vec) - (1 : Frame).p)).len = 1 := by simp [Vec.len]
    have := le_max_left (((⟨1, 0, 0⟩ : Vec) - (1 : Frame).p)).len
      (((1 : Frame).M.inv * Rot.rotZ (π / 2)).getRotAngle.2 * 1)
    intro h
    linarith

end KDL
