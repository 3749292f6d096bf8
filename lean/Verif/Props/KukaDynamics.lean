import Verif.Props.Robots
import Mathlib.Analysis.Real.Pi.Bounds
/-! C76: the mass matrix of the KUKA arm is positive definite. Mass and inertia are moved across the joints: what a link
receives from the next one is invariant under the rotation of the joint between them. -/

noncomputable section
namespace KDL
open Real

/-- The twist of a link after the rotation of its joint, before the tip frame. -/
def mid (θ δ : ℝ) (u : Twist) : Twist := ⟨(Rot.rotZ θ).inv * u.vel, (Rot.rotZ θ).inv * u.rot + ⟨0, 0, δ⟩⟩
/-- The quantity moved across a joint. -/
def tq (μ ρ : ℝ) (u : Twist) : ℝ := μ * u.vel.dot u.vel - ρ * (u.rot.x ^ 2 + u.rot.y ^ 2)

theorem tq_mid (μ ρ θ δ : ℝ) (u : Twist) : tq μ ρ (mid θ δ u) = tq μ ρ u := by
  have h := sin_sq_add_cos_sq θ
  simp [tq, mid, Vec.dot, Rot.rotZ, Rot.inv]
  linear_combination (μ * (u.vel.x ^ 2 + u.vel.y ^ 2) - ρ * (u.rot.x ^ 2 + u.rot.y ^ 2)) * h

theorem up_mid (q δ : ℕ → ℝ) (F : Frame) (hF : F.IsProper) (I : RBI) (j : ℕ) (u : Twist) :
    up q δ (.ofJoint (.simple .RotZ) F I) j u = F.inv * mid (q j) (δ j) u := by
  have hR : (Rot.rotZ (q j)).IsProper := Rot.isProper_rotZ _
  have e : (Segment.ofJoint (.simple .RotZ) F I).pose (q j) = Frame.ofRot (Rot.rotZ (q j)) * F := by
    rw [ofJoint_rotZ]; simp [Segment.pose, Joint.simple, Joint.pose]
  have t : (Segment.ofJoint (.simple .RotZ) F I).twist (q j) 1 = ⟨(⟨0, 0, 1⟩ : Vec) * (Rot.rotZ (q j) * F.p), ⟨0, 0, 1⟩⟩ := by
    rw [ofJoint_rotZ]
    ext <;> simp [Segment.twist, Joint.twist, Joint.simple, Joint.pose, Twist.refPoint, Frame.ofRot]
  unfold up Ss Xs
  rw [Frame.invTwist_eq, Rot.invTwist_eq]
  simp only [qv, moving_rotZ, if_true, e, t]
  have i1 : ∀ v : Vec, (Frame.ofRot (Rot.rotZ (q j)) * F).M.inv * v = F.M.inv * ((Rot.rotZ (q j)).inv * v) := fun v => by
    rw [← Rot.mul_app]; congr 1; ext <;> simp [Rot.inv, Frame.ofRot] <;> ring
  have i2 : (Frame.ofRot (Rot.rotZ (q j)) * F).p = Rot.rotZ (q j) * F.p := by ext <;> simp [Frame.ofRot]
  have i3 : (Rot.rotZ (q j)).inv * (⟨0, 0, 1⟩ : Vec) = ⟨0, 0, 1⟩ := by ext <;> simp [Rot.rotZ, Rot.inv]
  have i4 : F.inv * mid (q j) (δ j) u = ⟨F.M.inv * ((mid (q j) (δ j) u).vel - F.p * (mid (q j) (δ j) u).rot),
      F.M.inv * (mid (q j) (δ j) u).rot⟩ := by
    have h1 := Rot.IsProper.cross (Rot.IsProper.inv hF) F.p (mid (q j) (δ j) u).rot
    show (⟨F.M.inv * (mid (q j) (δ j) u).vel + -F.M.invVec F.p * (F.M.inv * (mid (q j) (δ j) u).rot),
      F.M.inv * (mid (q j) (δ j) u).rot⟩ : Twist) = _
    have h2 : -F.M.invVec F.p * (F.M.inv * (mid (q j) (δ j) u).rot) = -((F.M.inv * F.p) * (F.M.inv * (mid (q j) (δ j) u).rot)) := by
      ext <;> simp [Rot.invVec, Rot.inv] <;> ring
    rw [h2, h1, Rot.app_sub, sub_eq_add_neg]
  have c1 : ∀ a : Vec, (Rot.rotZ (q j)).inv * ((Rot.rotZ (q j) * F.p) * a) = F.p * ((Rot.rotZ (q j)).inv * a) := fun a => by
    rw [← Rot.IsProper.cross hR.inv, Rot.IsProper.inv_app_app hR]
  have c2 : ∀ a : Vec, (Rot.rotZ (q j)).inv * (a * (Rot.rotZ (q j) * F.p)) = ((Rot.rotZ (q j)).inv * a) * F.p := fun a => by
    rw [← Rot.IsProper.cross hR.inv, Rot.IsProper.inv_app_app hR]
  rw [i4, i1, i1, i1, i1, i2, c2, i3, Rot.app_sub, c1]
  ext <;> simp [mid] <;> ring

theorem tq_craig (μ ρ α d : ℝ) (W : Twist) : tq μ ρ ((Frame.dhCraig 0 α d 0).inv * W) =
    μ * ((W.vel.x + (W.rot.y * (cos α * d) + W.rot.z * (sin α * d))) ^ 2 + (W.vel.y - W.rot.x * (cos α * d)) ^ 2 +
      (W.vel.z - W.rot.x * (sin α * d)) ^ 2) - ρ * (W.rot.x ^ 2 + (cos α * W.rot.y + sin α * W.rot.z) ^ 2) := by
  have h := sin_sq_add_cos_sq α
  have hs : cos α ^ 2 = 1 - sin α ^ 2 := by linarith
  simp [tq, Frame.dhCraig, Frame.inv, Rot.invVec, Rot.inv, Vec.dot]
  generalize sin α = S at *
  generalize cos α = C at *
  left
  ring_nf
  simp only [show C ^ 3 = C * C ^ 2 by ring, show C ^ 4 = C ^ 2 * C ^ 2 by ring, show C ^ 5 = C * (C ^ 2 * C ^ 2) by ring,
    show C ^ 6 = C ^ 2 * (C ^ 2 * C ^ 2) by ring, hs]
  ring

theorem quarter_bounds : 0 ≤ cos quarter ∧ cos quarter ≤ 1e-7 ∧ 0 ≤ sin quarter ∧ sin quarter ^ 2 = 1 - cos quarter ^ 2 := by
  have h1 := pi_gt_d20
  have h2 := pi_lt_d20
  have e : cos quarter = sin (π / 2 - quarter) := (sin_pi_div_two_sub _).symm
  have p : 0 ≤ π / 2 - quarter := by unfold quarter; linarith
  refine ⟨cos_nonneg_of_neg_pi_div_two_le_of_le ?_ ?_, ?_, sin_nonneg_of_nonneg_of_le_pi ?_ ?_, ?_⟩
  · unfold quarter; linarith
  · linarith
  · rw [e]
    refine (sin_le p).trans ?_
    unfold quarter; norm_num; linarith
  · unfold quarter; norm_num
  · unfold quarter; linarith
  · linarith [sin_sq_add_cos_sq quarter]

/-- One link: if the energy of the link and the quantity passed on exceed the quantity received, so they do along the chain. -/
theorem kin_step (q δ : ℕ → ℝ) (F : Frame) (hF : F.IsProper) (m : ℝ) (c : Vec) (Ic : Mat3) (ss : List Segment) (j : ℕ) (u : Twist)
    (μ ρ μ' ρ' : ℝ)
    (h : ∀ W : Twist, W = mid (q j) (δ j) u → tq μ ρ W + 1e-7 * W.rot.dot W.rot ≤
      m * Vec.dot (W.vel + W.rot * c) (W.vel + W.rot * c) + Vec.dot W.rot (Ic * W.rot) + tq μ' ρ' (F.inv * W)) :
    tq μ ρ u + 1e-7 * (mid (q j) (δ j) u).rot.dot (mid (q j) (δ j) u).rot +
      (kin q δ δ ss (j + 1) (F.inv * mid (q j) (δ j) u) (F.inv * mid (q j) (δ j) u) - tq μ' ρ' (F.inv * mid (q j) (δ j) u)) ≤
    kin q δ δ (.ofJoint (.simple .RotZ) F (F.inv * RBI.ofCog m c Ic) :: ss) j u u := by
  conv_rhs => unfold kin
  rw [up_mid q δ F hF, show nx (.ofJoint (.simple .RotZ) F (F.inv * RBI.ofCog m c Ic)) j = j + 1 from rfl, ofJoint_rotZ]
  dsimp only
  rw [C37_energy_frame _ hF.inv, C37_energy]
  have := h (mid (q j) (δ j) u) rfl
  rw [tq_mid] at this
  have z : ∀ x : ℝ, x * ((Joint.simple .RotZ).inertia * x) = 0 := fun x => by simp [Joint.simple]
  rw [z]
  linarith

theorem skew_bound (y z : ℝ) : (cos quarter * y + sin quarter * z) ^ 2 ≤ 2 * z ^ 2 + 2e-14 * y ^ 2 := by
  obtain ⟨c0, c1, s0, s2⟩ := quarter_bounds
  have h1 : cos quarter ^ 2 ≤ 1e-14 := by nlinarith
  nlinarith [sq_nonneg (cos quarter * y - sin quarter * z), mul_nonneg (sq_nonneg y) (sub_nonneg.mpr h1),
    mul_nonneg (sq_nonneg z) (sq_nonneg (cos quarter))]
theorem skew_bound' (y z : ℝ) : (cos quarter * y - sin quarter * z) ^ 2 ≤ 2 * z ^ 2 + 2e-14 * y ^ 2 := by
  have := skew_bound y (-z)
  nlinarith

theorem link6 (W : Twist) : tq 3.5 1e-4 W + 1e-7 * W.rot.dot W.rot ≤
    2 * Vec.dot (W.vel + W.rot * (⟨0, 0.0080787, 0⟩ : Vec)) (W.vel + W.rot * (⟨0, 0.0080787, 0⟩ : Vec)) +
      Vec.dot W.rot (rotationalInertia 0.0010431 0 0.0036376 0 0 0.0000101 * W.rot) +
      tq 2 5e-5 ((Frame.dhCraig 0 (-quarter) 0 0).inv * W) := by
  rw [tq_craig]
  have h := skew_bound' W.rot.y W.rot.z
  simp only [cos_neg, sin_neg, neg_mul]
  rw [← sub_eq_add_neg]
  generalize (cos quarter * W.rot.y - sin quarter * W.rot.z) ^ 2 = X at *
  simp [tq, Vec.dot, rotationalInertia]
  obtain ⟨⟨a, b, c⟩, ⟨x, y, z⟩⟩ := W
  dsimp only at *
  norm_num at *
  nlinarith [sq_nonneg (a - 4 * 0.0080787 * z), sq_nonneg (c + 4 * 0.0080787 * x), sq_nonneg b, sq_nonneg x, sq_nonneg y, sq_nonneg z, sq_nonneg (y + z), sq_nonneg (y - z)]

theorem link5 (W : Twist) : tq 5 1e-3 W + 1e-7 * W.rot.dot W.rot ≤
    2 * Vec.dot (W.vel + W.rot * (⟨0, 0.0119891, 0⟩ : Vec)) (W.vel + W.rot * (⟨0, 0.0119891, 0⟩ : Vec)) +
      Vec.dot W.rot (rotationalInertia 0.0036654 0 0.0060429 0 0 0.0004226 * W.rot) +
      tq 3.5 1e-4 ((Frame.dhCraig 0 quarter 0 0).inv * W) := by
  rw [tq_craig]
  have h := skew_bound W.rot.y W.rot.z
  generalize (cos quarter * W.rot.y + sin quarter * W.rot.z) ^ 2 = X at *
  simp [tq, Vec.dot, rotationalInertia]
  obtain ⟨⟨a, b, c⟩, ⟨x, y, z⟩⟩ := W
  dsimp only at *
  norm_num at *
  nlinarith [sq_nonneg (a - 4 * 0.0119891 * z), sq_nonneg (c + 4 * 0.0119891 * x), sq_nonneg b, sq_nonneg x, sq_nonneg y,
    sq_nonneg z, sq_nonneg (y + z), sq_nonneg (y - z)]

theorem link3 (W : Twist) : tq 4 1e-3 W + 1e-7 * W.rot.dot W.rot ≤
    2 * Vec.dot (W.vel + W.rot * (⟨0, -0.0015515, 0⟩ : Vec)) (W.vel + W.rot * (⟨0, -0.0015515, 0⟩ : Vec)) +
      Vec.dot W.rot (rotationalInertia 0.0063507 0 0.0107804 0 0 (-0.0005147) * W.rot) +
      tq 3 1e-3 ((Frame.dhCraig 0 (-quarter) 0 0).inv * W) := by
  rw [tq_craig]
  have h := skew_bound' W.rot.y W.rot.z
  simp only [cos_neg, sin_neg, neg_mul]
  rw [← sub_eq_add_neg]
  generalize (cos quarter * W.rot.y - sin quarter * W.rot.z) ^ 2 = X at *
  simp [tq, Vec.dot, rotationalInertia]
  obtain ⟨⟨a, b, c⟩, ⟨x, y, z⟩⟩ := W
  dsimp only at *
  norm_num at *
  nlinarith [sq_nonneg (a + 2 * 0.0015515 * z), sq_nonneg (c - 2 * 0.0015515 * x), sq_nonneg b, sq_nonneg x, sq_nonneg y,
    sq_nonneg z, sq_nonneg (y + z), sq_nonneg (y - z)]

theorem link1 (w : ℝ) : 1e-7 * (w * w) ≤
    Vec.dot (⟨0, 0, w⟩ : Vec) (rotationalInertia 0 0 0.0115343 0 0 0 * (⟨0, 0, w⟩ : Vec)) +
      tq 0 1e-2 ((Frame.dhCraig 0 quarter 0 0).inv * (⟨0, ⟨0, 0, w⟩⟩ : Twist)) := by
  rw [tq_craig]
  obtain ⟨c0, c1, s0, s2⟩ := quarter_bounds
  simp [Vec.dot, rotationalInertia]
  norm_num
  nlinarith [mul_nonneg (mul_self_nonneg w) (sq_nonneg (cos quarter)), mul_self_nonneg w]

/-- The tip offset along the axis up to the error of `quarter`. -/
theorem off_bound (d : ℝ) (hd : 0 ≤ d) (hd1 : d ≤ 1) (a y z : ℝ) :
    0.999 * (a + d * z) ^ 2 - 1e-9 * (y ^ 2 + z ^ 2) ≤ (a + (y * (cos quarter * d) + z * (sin quarter * d))) ^ 2 := by
  obtain ⟨c0, c1, s0, s2⟩ := quarter_bounds
  have s1 : sin quarter ≤ 1 := sin_le_one _
  have h1 : cos quarter ^ 2 ≤ 1e-14 := by nlinarith
  have h2 : 1 - sin quarter ≤ 1e-14 := by nlinarith
  generalize cos quarter = C at *
  generalize sin quarter = S at *
  have h3 : (1 - S) ^ 2 ≤ 1e-14 := by nlinarith
  have k1 : (a + (y * (C * d) + z * (S * d))) = (a + d * z) + d * (y * C - z * (1 - S)) := by ring
  rw [k1]
  have k2 : (y * C - z * (1 - S)) ^ 2 ≤ 1e-13 * (y ^ 2 + z ^ 2) := by
    nlinarith [sq_nonneg (y * C + z * (1 - S)), mul_nonneg (sq_nonneg y) (sub_nonneg.mpr h1), mul_nonneg (sq_nonneg z) (sub_nonneg.mpr h3),
      sq_nonneg y, sq_nonneg z]
  have k3 : (d * (y * C - z * (1 - S))) ^ 2 ≤ 1e-13 * (y ^ 2 + z ^ 2) := by
    have hd2 : d ^ 2 ≤ 1 := by nlinarith
    nlinarith [mul_nonneg (sub_nonneg.mpr hd2) (sq_nonneg (y * C - z * (1 - S)))]
  generalize d * (y * C - z * (1 - S)) = P at *
  nlinarith [sq_nonneg (a + d * z + 1000 * P), sq_nonneg y, sq_nonneg z]
theorem off_bound_cos (d : ℝ) (hd : 0 ≤ d) (hd1 : d ≤ 1) (b x : ℝ) :
    0.999 * b ^ 2 - 1e-9 * x ^ 2 ≤ (b - x * (cos quarter * d)) ^ 2 := by
  have h := off_bound d hd hd1 b (-x) 0
  have e1 : (b + (-x * (cos quarter * d) + 0 * (sin quarter * d))) = b - x * (cos quarter * d) := by ring
  have e2 : b + d * 0 = b := by ring
  rw [e1, e2] at h
  linarith
theorem off_bound_sin (d : ℝ) (hd : 0 ≤ d) (hd1 : d ≤ 1) (c x : ℝ) :
    0.999 * (c + d * x) ^ 2 - 1e-9 * x ^ 2 ≤ (c + x * (sin quarter * d)) ^ 2 := by
  have h := off_bound d hd hd1 c 0 x
  rw [zero_mul, zero_add] at h
  linarith
theorem off_bound_sin' (d : ℝ) (hd : 0 ≤ d) (hd1 : d ≤ 1) (c x : ℝ) :
    0.999 * (c - d * x) ^ 2 - 1e-9 * x ^ 2 ≤ (c - x * (sin quarter * d)) ^ 2 := by
  have h := off_bound_sin d hd hd1 c (-x)
  have e1 : c + -x * (sin quarter * d) = c - x * (sin quarter * d) := by ring
  have e2 : c + d * -x = c - d * x := by ring
  rw [e1, e2] at h
  linarith

theorem link4 (W : Twist) : tq 3 1e-3 W + 1e-7 * W.rot.dot W.rot ≤
    2 * Vec.dot (W.vel + W.rot * (⟨0, 0.5216809, 0⟩ : Vec)) (W.vel + W.rot * (⟨0, 0.5216809, 0⟩ : Vec)) +
      Vec.dot W.rot (rotationalInertia (-1.0436952) 0 (-1.0392780) 0 0 0.0005324 * W.rot) +
      tq 5 1e-3 ((Frame.dhCraig 0 quarter 0.39 0).inv * W) := by
  rw [tq_craig]
  have h := skew_bound W.rot.y W.rot.z
  have h1 := off_bound 0.39 (by norm_num) (by norm_num) W.vel.x W.rot.y W.rot.z
  have h2 := off_bound_cos 0.39 (by norm_num) (by norm_num) W.vel.y W.rot.x
  have h3 := off_bound_sin' 0.39 (by norm_num) (by norm_num) W.vel.z W.rot.x
  generalize (cos quarter * W.rot.y + sin quarter * W.rot.z) ^ 2 = X at *
  generalize (W.vel.x + (W.rot.y * (cos quarter * 0.39) + W.rot.z * (sin quarter * 0.39))) ^ 2 = X1 at *
  generalize (W.vel.y - W.rot.x * (cos quarter * 0.39)) ^ 2 = X2 at *
  generalize (W.vel.z - W.rot.x * (sin quarter * 0.39)) ^ 2 = X3 at *
  simp [tq, Vec.dot, rotationalInertia]
  obtain ⟨⟨a, b, c⟩, ⟨x, y, z⟩⟩ := W
  dsimp only at *
  norm_num at *
  nlinarith [sq_nonneg (a + 0.22644 * z), sq_nonneg (c - 0.22644 * x), sq_nonneg b, sq_nonneg x, sq_nonneg y,
    sq_nonneg z, sq_nonneg (y + z), sq_nonneg (y - z)]

theorem link2 (W : Twist) : tq 0 1e-2 W + 1e-7 * W.rot.dot W.rot ≤
    2 * Vec.dot (W.vel + W.rot * (⟨0, -0.3120511, -0.0038871⟩ : Vec)) (W.vel + W.rot * (⟨0, -0.3120511, -0.0038871⟩ : Vec)) +
      Vec.dot W.rot (rotationalInertia (-0.5471572) (-0.0000302) (-0.5423253) 0 0 0.0018828 * W.rot) +
      tq 4 1e-3 ((Frame.dhCraig 0 (-quarter) 0.4 0).inv * W) := by
  rw [tq_craig]
  have h := skew_bound' W.rot.y W.rot.z
  have h1 := off_bound 0.4 (by norm_num) (by norm_num) W.vel.x W.rot.y (-W.rot.z)
  have h2 := off_bound_cos 0.4 (by norm_num) (by norm_num) W.vel.y W.rot.x
  have h3 := off_bound_sin 0.4 (by norm_num) (by norm_num) W.vel.z W.rot.x
  simp only [cos_neg, sin_neg, neg_mul, mul_neg, sub_neg_eq_add] at h1 ⊢
  rw [← sub_eq_add_neg (cos quarter * W.rot.y), ← sub_eq_add_neg (W.rot.y * (cos quarter * 0.4))]
  rw [← sub_eq_add_neg W.vel.x, ← sub_eq_add_neg (W.rot.y * (cos quarter * 0.4))] at h1
  generalize (cos quarter * W.rot.y - sin quarter * W.rot.z) ^ 2 = X at *
  generalize (W.vel.x + (W.rot.y * (cos quarter * 0.4) - W.rot.z * (sin quarter * 0.4))) ^ 2 = X1 at *
  generalize (W.vel.y - W.rot.x * (cos quarter * 0.4)) ^ 2 = X2 at *
  generalize (W.vel.z + W.rot.x * (sin quarter * 0.4)) ^ 2 = X3 at *
  simp [tq, Vec.dot, rotationalInertia]
  obtain ⟨⟨a, b, c⟩, ⟨x, y, z⟩⟩ := W
  dsimp only at *
  norm_num at *
  linarith [sq_nonneg (a - 9742978 / 59960000 * z - 77742 / 59960000 * y), sq_nonneg (c + 9742978 / 59960000 * x), sq_nonneg (b + 77742 / 59960000 * x), sq_nonneg x, sq_nonneg y,
    sq_nonneg z, sq_nonneg (y + z), sq_nonneg (y - z)]

theorem link7 (W : Twist) : tq 2 5e-5 W + 1e-7 * W.rot.dot W.rot ≤
    2 * Vec.dot (W.vel + W.rot * (0 : Vec)) (W.vel + W.rot * (0 : Vec)) +
      Vec.dot W.rot (rotationalInertia 0.000001 0 0.0001203 0 0 0 * W.rot) + tq 0 0 ((1 : Frame).inv * W) := by
  simp [tq, Vec.dot, rotationalInertia]
  obtain ⟨⟨a, b, c⟩, ⟨x, y, z⟩⟩ := W
  dsimp only at *
  norm_num at *
  linarith [sq_nonneg x, sq_nonneg y, sq_nonneg z]

theorem one_inv_rbi (I : RBI) : (1 : Frame).inv * I = I := by
  have : (1 : Frame).inv = 1 := by ext <;> simp [Frame.inv, Rot.invVec]
  rw [this]
  have e : (1 : Frame) * I = ⟨I.m, (1 : Frame).M * (I.h - I.m • (1 : Frame).inv.p), Mat3.mapRot (1 : Frame).inv.M *
      ((I.I + (Mat3.outer I.h (1 : Frame).inv.p - (Vec.dot (1 : Frame).inv.p I.h) • (1 : Mat3)) +
        (Mat3.outer (1 : Frame).inv.p (I.h - I.m • (1 : Frame).inv.p) -
          (Vec.dot (I.h - I.m • (1 : Frame).inv.p) (1 : Frame).inv.p) • (1 : Mat3))) * (Mat3.mapRot (1 : Frame).inv.M).tr)⟩ := rfl
  rw [e, this]
  obtain ⟨m, h, I⟩ := I
  congr 1
  · ext <;> simp
  · ext <;> simp [Mat3.mapRot, Mat3.tr, Mat3.mul_def, Mat3.add_def, Mat3.sub_def, Mat3.smul_def, Mat3.outer, Mat3.one_def, Vec.dot]

/-- Angular velocity zero before and after a link: the joint rests. -/
theorem mid_rest (θ δ : ℝ) (u : Twist) (hu : u.rot = 0) (h : (mid θ δ u).rot.dot (mid θ δ u).rot ≤ 0) :
    (mid θ δ u).rot = 0 ∧ δ = 0 := by
  have e : (mid θ δ u).rot = ⟨0, 0, δ⟩ := by
    unfold mid
    rw [hu]
    ext <;> simp
  rw [e] at h ⊢
  have h' : δ * δ ≤ 0 := by simpa [Vec.dot] using h
  have : δ = 0 := mul_self_eq_zero.mp (le_antisymm h' (mul_self_nonneg _))
  subst this
  exact ⟨rfl, rfl⟩

theorem craig_proper (α d : ℝ) : (Frame.dhCraig 0 α d 0).IsProper := (C11_proper 0 α d 0).2

def k0 : Segment := .ofJoint (.simple .Fixed) (Frame.dhCraig 0 0 0.31 0) RBI.zero
def k1 : Segment := .ofJoint (.simple .RotZ) (Frame.dhCraig 0 quarter 0 0)
    ((Frame.dhCraig 0 quarter 0 0).inv * RBI.ofCog 2 0 (rotationalInertia 0 0 0.0115343 0 0 0))
def k2 : Segment := .ofJoint (.simple .RotZ) (Frame.dhCraig 0 (-quarter) 0.4 0)
    ((Frame.dhCraig 0 (-quarter) 0.4 0).inv * RBI.ofCog 2 ⟨0, -0.3120511, -0.0038871⟩ (rotationalInertia (-0.5471572) (-0.0000302) (-0.5423253) 0 0 0.0018828))
def k3 : Segment := .ofJoint (.simple .RotZ) (Frame.dhCraig 0 (-quarter) 0 0)
    ((Frame.dhCraig 0 (-quarter) 0 0).inv * RBI.ofCog 2 ⟨0, -0.0015515, 0⟩ (rotationalInertia 0.0063507 0 0.0107804 0 0 (-0.0005147)))
def k4 : Segment := .ofJoint (.simple .RotZ) (Frame.dhCraig 0 quarter 0.39 0)
    ((Frame.dhCraig 0 quarter 0.39 0).inv * RBI.ofCog 2 ⟨0, 0.5216809, 0⟩ (rotationalInertia (-1.0436952) 0 (-1.0392780) 0 0 0.0005324))
def k5 : Segment := .ofJoint (.simple .RotZ) (Frame.dhCraig 0 quarter 0 0)
    ((Frame.dhCraig 0 quarter 0 0).inv * RBI.ofCog 2 ⟨0, 0.0119891, 0⟩ (rotationalInertia 0.0036654 0 0.0060429 0 0 0.0004226))
def k6 : Segment := .ofJoint (.simple .RotZ) (Frame.dhCraig 0 (-quarter) 0 0)
    ((Frame.dhCraig 0 (-quarter) 0 0).inv * RBI.ofCog 2 ⟨0, 0.0080787, 0⟩ (rotationalInertia 0.0010431 0 0.0036376 0 0 0.0000101))
def k7 : Segment := .ofJoint (.simple .RotZ) 1 (RBI.ofCog 2 0 (rotationalInertia 0.000001 0 0.0001203 0 0 0))
theorem kuka_eq : kukaLWR = ⟨7, 8, [k0, k1, k2, k3, k4, k5, k6, k7]⟩ := rfl

theorem kuka_kin (q δ : ℕ → ℝ) (h0 : kin q δ δ [k0, k1, k2, k3, k4, k5, k6, k7] 0 0 0 ≤ 0) : ∀ i < 7, δ i = 0 := by
  have u0 : up q δ k0 0 0 = 0 := by
    rw [up, Frame.invTwist_zero, zero_add, show qv k0 δ 0 = 0 from rfl, zero_smul]
  rw [kin, u0, show nx k0 0 = 0 from rfl, show qv k0 δ 0 = 0 from rfl] at h0
  have z : (0 : Twist).dot (k0.I * (0 : Twist)) = 0 := by simp [Twist.dot, Vec.dot]
  rw [z] at h0
  obtain ⟨W1, hW1⟩ : ∃ W, W = mid (q 0) (δ 0) 0 := ⟨_, rfl⟩
  obtain ⟨V1, hV1⟩ : ∃ V, V = (Frame.dhCraig 0 quarter 0 0).inv * W1 := ⟨_, rfl⟩
  obtain ⟨W2, hW2⟩ : ∃ W, W = mid (q 1) (δ 1) V1 := ⟨_, rfl⟩
  obtain ⟨V2, hV2⟩ : ∃ V, V = (Frame.dhCraig 0 (-quarter) 0.4 0).inv * W2 := ⟨_, rfl⟩
  obtain ⟨W3, hW3⟩ : ∃ W, W = mid (q 2) (δ 2) V2 := ⟨_, rfl⟩
  obtain ⟨V3, hV3⟩ : ∃ V, V = (Frame.dhCraig 0 (-quarter) 0 0).inv * W3 := ⟨_, rfl⟩
  obtain ⟨W4, hW4⟩ : ∃ W, W = mid (q 3) (δ 3) V3 := ⟨_, rfl⟩
  obtain ⟨V4, hV4⟩ : ∃ V, V = (Frame.dhCraig 0 quarter 0.39 0).inv * W4 := ⟨_, rfl⟩
  obtain ⟨W5, hW5⟩ : ∃ W, W = mid (q 4) (δ 4) V4 := ⟨_, rfl⟩
  obtain ⟨V5, hV5⟩ : ∃ V, V = (Frame.dhCraig 0 quarter 0 0).inv * W5 := ⟨_, rfl⟩
  obtain ⟨W6, hW6⟩ : ∃ W, W = mid (q 5) (δ 5) V5 := ⟨_, rfl⟩
  obtain ⟨V6, hV6⟩ : ∃ V, V = (Frame.dhCraig 0 (-quarter) 0 0).inv * W6 := ⟨_, rfl⟩
  obtain ⟨W7, hW7⟩ : ∃ W, W = mid (q 6) (δ 6) V6 := ⟨_, rfl⟩
  have e7 : tq 2 5e-5 V6 + 1e-7 * W7.rot.dot W7.rot ≤ kin q δ δ [k7] 6 V6 V6 := by
    have := kin_step q δ 1 Rot.IsProper.one 2 0 (rotationalInertia 0.000001 0 0.0001203 0 0 0) [] 6 V6 2 5e-5 0 0 fun W _ => link7 W
    rw [one_inv_rbi, ← hW7, kin, show tq 0 0 ((1 : Frame).inv * W7) = 0 by simp [tq], sub_zero, add_zero] at this
    exact this
  have e6 : tq 3.5 1e-4 V5 + 1e-7 * W6.rot.dot W6.rot + (kin q δ δ [k7] 6 V6 V6 - tq 2 5e-5 V6) ≤
      kin q δ δ [k6, k7] 5 V5 V5 := by
    rw [hV6, hW6]
    exact kin_step q δ _ (craig_proper (-quarter) 0) 2 ⟨0, 0.0080787, 0⟩ (rotationalInertia 0.0010431 0 0.0036376 0 0 0.0000101) [k7] 5 V5
      3.5 1e-4 2 5e-5 fun W _ => link6 W
  have e5 : tq 5 1e-3 V4 + 1e-7 * W5.rot.dot W5.rot + (kin q δ δ [k6, k7] 5 V5 V5 - tq 3.5 1e-4 V5) ≤
      kin q δ δ [k5, k6, k7] 4 V4 V4 := by
    rw [hV5, hW5]
    exact kin_step q δ _ (craig_proper quarter 0) 2 ⟨0, 0.0119891, 0⟩ (rotationalInertia 0.0036654 0 0.0060429 0 0 0.0004226) [k6, k7] 4 V4
      5 1e-3 3.5 1e-4 fun W _ => link5 W
  have e4 : tq 3 1e-3 V3 + 1e-7 * W4.rot.dot W4.rot + (kin q δ δ [k5, k6, k7] 4 V4 V4 - tq 5 1e-3 V4) ≤
      kin q δ δ [k4, k5, k6, k7] 3 V3 V3 := by
    rw [hV4, hW4]
    exact kin_step q δ _ (craig_proper quarter 0.39) 2 ⟨0, 0.5216809, 0⟩ (rotationalInertia (-1.0436952) 0 (-1.0392780) 0 0 0.0005324) [k5, k6, k7] 3 V3
      3 1e-3 5 1e-3 fun W _ => link4 W
  have e3 : tq 4 1e-3 V2 + 1e-7 * W3.rot.dot W3.rot + (kin q δ δ [k4, k5, k6, k7] 3 V3 V3 - tq 3 1e-3 V3) ≤
      kin q δ δ [k3, k4, k5, k6, k7] 2 V2 V2 := by
    rw [hV3, hW3]
    exact kin_step q δ _ (craig_proper (-quarter) 0) 2 ⟨0, -0.0015515, 0⟩ (rotationalInertia 0.0063507 0 0.0107804 0 0 (-0.0005147)) [k4, k5, k6, k7] 2 V2
      4 1e-3 3 1e-3 fun W _ => link3 W
  have e2 : tq 0 1e-2 V1 + 1e-7 * W2.rot.dot W2.rot + (kin q δ δ [k3, k4, k5, k6, k7] 2 V2 V2 - tq 4 1e-3 V2) ≤
      kin q δ δ [k2, k3, k4, k5, k6, k7] 1 V1 V1 := by
    rw [hV2, hW2]
    exact kin_step q δ _ (craig_proper (-quarter) 0.4) 2 ⟨0, -0.3120511, -0.0038871⟩ (rotationalInertia (-0.5471572) (-0.0000302) (-0.5423253) 0 0 0.0018828) [k3, k4, k5, k6, k7] 1 V1
      0 1e-2 4 1e-3 fun W _ => link2 W
  have e1 : tq 0 0 (0 : Twist) + 1e-7 * W1.rot.dot W1.rot + (kin q δ δ [k2, k3, k4, k5, k6, k7] 1 V1 V1 - tq 0 1e-2 V1) ≤
      kin q δ δ [k1, k2, k3, k4, k5, k6, k7] 0 (0 : Twist) (0 : Twist) := by
    rw [hV1, hW1]
    exact kin_step q δ _ (craig_proper quarter 0) 2 0 (rotationalInertia 0 0 0.0115343 0 0 0) [k2, k3, k4, k5, k6, k7] 0 (0 : Twist)
      0 0 0 1e-2 fun W hW => by
        have e : W = ⟨0, ⟨0, 0, δ 0⟩⟩ := by rw [hW]; ext <;> simp [mid]
        have := link1 (δ 0)
        rw [e]
        have z1 : tq 0 0 (⟨0, ⟨0, 0, δ 0⟩⟩ : Twist) = 0 := by simp [tq]
        have z2 : Vec.dot (⟨0, 0, δ 0⟩ : Vec) ⟨0, 0, δ 0⟩ = δ 0 * δ 0 := by simp [Vec.dot]
        have z3 : (0 : ℝ) ≤ 2 * Vec.dot ((0 : Vec) + (⟨0, 0, δ 0⟩ : Vec) * (0 : Vec)) ((0 : Vec) + (⟨0, 0, δ 0⟩ : Vec) * (0 : Vec)) := by
          simp [Vec.dot]
        rw [z1, z2]
        linarith
  have z0 : tq 0 0 (0 : Twist) = 0 := by simp [tq]
  have p1 : 0 ≤ W1.rot.dot W1.rot := Vec.dot_self_nonneg _
  have p2 : 0 ≤ W2.rot.dot W2.rot := Vec.dot_self_nonneg _
  have p3 : 0 ≤ W3.rot.dot W3.rot := Vec.dot_self_nonneg _
  have p4 : 0 ≤ W4.rot.dot W4.rot := Vec.dot_self_nonneg _
  have p5 : 0 ≤ W5.rot.dot W5.rot := Vec.dot_self_nonneg _
  have p6 : 0 ≤ W6.rot.dot W6.rot := Vec.dot_self_nonneg _
  have p7 : 0 ≤ W7.rot.dot W7.rot := Vec.dot_self_nonneg _
  have zr : ∀ (F : Frame) (W : Twist), W.rot = 0 → (F.inv * W).rot = 0 := fun F W h => by
    show F.inv.M * W.rot = 0
    rw [h]; ext <;> simp
  obtain ⟨w1, d1⟩ := mid_rest (q 0) (δ 0) 0 rfl (by rw [← hW1]; linarith)
  rw [← hW1] at w1
  have v1 : V1.rot = 0 := hV1 ▸ zr _ _ w1
  obtain ⟨w2, d2⟩ := mid_rest (q 1) (δ 1) V1 v1 (by rw [← hW2]; linarith)
  rw [← hW2] at w2
  have v2 : V2.rot = 0 := hV2 ▸ zr _ _ w2
  obtain ⟨w3, d3⟩ := mid_rest (q 2) (δ 2) V2 v2 (by rw [← hW3]; linarith)
  rw [← hW3] at w3
  have v3 : V3.rot = 0 := hV3 ▸ zr _ _ w3
  obtain ⟨w4, d4⟩ := mid_rest (q 3) (δ 3) V3 v3 (by rw [← hW4]; linarith)
  rw [← hW4] at w4
  have v4 : V4.rot = 0 := hV4 ▸ zr _ _ w4
  obtain ⟨w5, d5⟩ := mid_rest (q 4) (δ 4) V4 v4 (by rw [← hW5]; linarith)
  rw [← hW5] at w5
  have v5 : V5.rot = 0 := hV5 ▸ zr _ _ w5
  obtain ⟨w6, d6⟩ := mid_rest (q 5) (δ 5) V5 v5 (by rw [← hW6]; linarith)
  rw [← hW6] at w6
  have v6 : V6.rot = 0 := hV6 ▸ zr _ _ w6
  obtain ⟨w7, d7⟩ := mid_rest (q 6) (δ 6) V6 v6 (by rw [← hW7]; linarith)
  rw [← hW7] at w7
  intro i hi
  interval_cases i <;> assumption

/-- **C76, KUKA arm**: although the inertias given for two of the links are negative, the mass matrix is positive definite in
every configuration: the links before and after them make up for it. -/
theorem C76_kuka_posdef (q : List ℝ) (hq : q.length = 7) (grav : Vec) (H0 : JMat) (hH : H0.n = 7) :
    ∃ H, (DynState.new kukaLWR grav).mass kukaLWR q H0 = some (E_NOERROR, H) ∧ PosDefOn 7 H.d := by
  obtain ⟨s1, s2, hc, hv, hI⟩ := C76_kuka_shape
  obtain ⟨H, e1, _, e3⟩ := jntToMass_eq kukaLWR hc hv hI q H0 hq hH
  refine ⟨H, e1, fun x ⟨i, hi, hx⟩ => ?_⟩
  rw [s1] at e3
  rw [e3 x x]
  by_contra h
  exact hx (kuka_kin (rd q) x (not_lt.mp h) i hi)

/-- Hence its forward dynamics is solved in every state too, and the accelerations found need exactly the given torques. -/
theorem C76_kuka_dynamics (grav : Vec) (q qd τ : List ℝ) (fext : List Wrench) (qdd0 τ0 : List ℝ) (H0 : ℕ → ℕ → ℝ) (T0 : ℕ → ℝ)
    (L0 : LDL) (r0 x0 : ℕ → ℝ) (hq : q.length = 7) (hqd : qd.length = 7) (hqdd : qdd0.length = 7) (hτ : τ.length = 7)
    (hτ0 : τ0.length = 7) (hf : fext.length = 8) :
    ∃ qdd, fdRne (.new kukaLWR grav) kukaLWR q qd τ fext qdd0 H0 T0 L0 r0 x0 = some (.ret E_NOERROR qdd) ∧ qdd.length = 7 ∧
      idRne kukaLWR 7 8 grav q qd qdd fext τ0 = some (E_NOERROR, τ) := by
  obtain ⟨s1, s2, hc, hv, hI⟩ := C76_kuka_shape
  obtain ⟨qdd, h⟩ := fd_of_posdef kukaLWR hc hv hI grav q qd τ fext qdd0 H0 T0 L0 r0 x0
    (C76_kuka_posdef q hq grav ⟨7, H0⟩ rfl) hq hqd hqdd hτ hf
  obtain ⟨_, h2, h3⟩ := C42_id_of_fd kukaLWR hc hv hI grav q qd τ fext qdd0 τ0 H0 T0 L0 r0 x0 hq hqd hqdd hτ hf hτ0 _ _ h
  exact ⟨qdd, h, h2, h3⟩

/-- Non-vacuity: the arm stretched upwards. -/
example : ∃ H, (DynState.new kukaLWR ⟨0, 0, -9.81⟩).mass kukaLWR [0, 0, 0, 0, 0, 0, 0] ⟨7, fun _ _ => 0⟩ = some (0, H) ∧
    PosDefOn 7 H.d := C76_kuka_posdef _ rfl _ _ rfl
example : ∃ qdd, fdRne (.new kukaLWR ⟨0, 0, -9.81⟩) kukaLWR (List.replicate 7 0) (List.replicate 7 1) (List.replicate 7 0)
    (List.replicate 8 0) (List.replicate 7 0) (fun _ _ => 0) (fun _ => 0) ⟨fun _ _ => 0, fun _ => 0⟩ (fun _ => 0) (fun _ => 0) =
      some (.ret 0 qdd) :=
  let ⟨qdd, h, _⟩ := C76_kuka_dynamics ⟨0, 0, -9.81⟩ (List.replicate 7 0) (List.replicate 7 1) (List.replicate 7 0)
    (List.replicate 8 0) (List.replicate 7 0) (List.replicate 7 0) (fun _ _ => 0) (fun _ => 0) ⟨fun _ _ => 0, fun _ => 0⟩
    (fun _ => 0) (fun _ => 0) rfl rfl rfl rfl rfl rfl
  ⟨qdd, h⟩

end KDL
