import Verif.Model.Robots
import Verif.Props.ForwardDynamics
import Verif.Props.ForwardKinematics
import Verif.Lemmas.NewtonEuler
import Mathlib.Tactic.IntervalCases

/-! C76: the robots of the models directory. -/

noncomputable section
namespace KDL
open Real

/-- The joints of both robots are constructed without an exception. -/
theorem C76_joints : Joint.ofType .RotZ = .ok (.simple .RotZ) ∧ Joint.ofType .Fixed = .ok (.simple .Fixed) := by
  simp [Joint.ofType, Joint.mk', Joint.simple]

theorem simple_pose_zero : (Joint.simple .RotZ).pose 0 = 1 ∧ (Joint.simple .Fixed).pose 0 = 1 := by
  constructor
  · ext <;> simp [Joint.simple, Joint.pose, Frame.ofRot, Rot.rotZ]
  · rfl

theorem simple_valid (t : JointType) (h : t ≠ .RotAxis) (h' : t ≠ .TransAxis) : (Joint.simple t).Valid := by
  intro ht
  rcases ht with ht | ht
  · exact absurd ht h
  · exact absurd ht h'

theorem ofJoint_rotZ (F : Frame) (I : RBI) : Segment.ofJoint (.simple .RotZ) F I = ⟨"NoName", .simple .RotZ, I, F⟩ := by
  unfold Segment.ofJoint Segment.mk'
  rw [simple_pose_zero.1]
  have : (1 : Frame).inv * F = F := by ext <;> simp [Frame.inv, Rot.invVec]
  rw [this]
theorem ofJoint_fixed (F : Frame) (I : RBI) : Segment.ofJoint (.simple .Fixed) F I = ⟨"NoName", .simple .Fixed, I, F⟩ := by
  unfold Segment.ofJoint Segment.mk'
  rw [simple_pose_zero.2]
  have : (1 : Frame).inv * F = F := by ext <;> simp [Frame.inv, Rot.invVec]
  rw [this]

/-- Pose of a segment with a joint about z and a tip frame in Denavit-Hartenberg parameters. -/
theorem pose_dh (a α d q : ℝ) (I : RBI) : (Segment.ofJoint (.simple .RotZ) (Frame.dh a α d 0) I).pose q = Frame.dh a α d q := by
  rw [ofJoint_rotZ]
  ext <;> simp [Segment.pose, Joint.simple, Joint.pose, Frame.ofRot, Rot.rotZ, Frame.dh] <;> ring

theorem pose_default (q : ℝ) : Segment.default.pose q = 1 := by
  unfold Segment.default
  rw [ofJoint_fixed]
  ext <;> simp [Segment.pose, Joint.simple, Joint.pose]

def p1 : Segment := .ofJoint (.simple .RotZ) (Frame.dh 0 (π / 2) 0 0) (RBI.ofCog 0 0 (rotationalInertia 0 0.35 0 0 0 0))
def p2 : Segment := .ofJoint (.simple .RotZ) (Frame.dh 0.4318 0 0 0)
    (RBI.ofCog 17.4 ⟨-0.3638, 0.006, 0.2275⟩ (rotationalInertia 0.13 0.524 0.539 0 0 0))
def p3 : Segment := .ofJoint (.simple .RotZ) (Frame.dh 0.0203 (-(π / 2)) 0.15005 0)
    (RBI.ofCog 4.8 ⟨-0.0203, -0.0141, 0.070⟩ (rotationalInertia 0.066 0.086 0.0125 0 0 0))
def p4 : Segment := .ofJoint (.simple .RotZ) (Frame.dh 0 (π / 2) 0.4318 0)
    (RBI.ofCog 0.82 ⟨0, 0.019, 0⟩ (rotationalInertia 1.8e-3 1.3e-3 1.8e-3 0 0 0))
def p5 : Segment := .ofJoint (.simple .RotZ) (Frame.dh 0 (-(π / 2)) 0 0)
    (RBI.ofCog 0.34 0 (rotationalInertia 0.3e-3 0.4e-3 0.3e-3 0 0 0))
def p6 : Segment := .ofJoint (.simple .RotZ) (Frame.dh 0 0 0 0)
    (RBI.ofCog 0.09 ⟨0, 0, 0.032⟩ (rotationalInertia 0.15e-3 0.15e-3 0.04e-3 0 0 0))

theorem moving_rotZ (F : Frame) (I : RBI) : (Segment.ofJoint (.simple .RotZ) F I).moving = true := rfl
theorem moving_default : Segment.default.moving = false := rfl

theorem puma_eq : puma560 = ⟨6, 11, [.default, p1, p2, .default, p3, p4, .default, .default, p5, p6, .default]⟩ := rfl

theorem valid_dh (a α d : ℝ) (I : RBI) : (Segment.ofJoint (.simple .RotZ) (Frame.dh a α d 0) I).Valid := by
  rw [ofJoint_rotZ]
  refine ⟨simple_valid _ (by decide) (by decide), ?_⟩
  exact (C11_proper a α d 0).1
theorem valid_default : Segment.default.Valid := by
  unfold Segment.default
  rw [ofJoint_fixed]
  exact ⟨simple_valid _ (by decide) (by decide), Rot.IsProper.one⟩

theorem symm_ofCog (m : ℝ) (c : Vec) (a b d e f g : ℝ) :
    (RBI.ofCog m c (rotationalInertia a b d e f g)).I.tr = (RBI.ofCog m c (rotationalInertia a b d e f g)).I := by
  ext <;> simp [RBI.ofCog, rotationalInertia, Mat3.tr, Mat3.sub_def, Mat3.smul_def, Mat3.outer, Mat3.one_def, mul_comm]

/-- **C76, Puma 560**: six joints, eleven segments, joint axes and tip frames valid, symmetric inertias. -/
theorem C76_puma_shape : puma560.nrOfJoints = 6 ∧ puma560.nrOfSegments = 11 ∧ puma560.WF ∧ puma560.Valid ∧ puma560.SymmI := by
  rw [puma_eq]
  refine ⟨rfl, rfl, ⟨rfl, rfl⟩, ?_, ?_⟩
  · intro s hs
    simp only [List.mem_cons, List.not_mem_nil, or_false] at hs
    rcases hs with rfl | rfl | rfl | rfl | rfl | rfl | rfl | rfl | rfl | rfl | rfl
    all_goals first | exact valid_default | exact valid_dh _ _ _ _
  · intro s hs
    simp only [List.mem_cons, List.not_mem_nil, or_false] at hs
    rcases hs with rfl | rfl | rfl | rfl | rfl | rfl | rfl | rfl | rfl | rfl | rfl <;> exact symm_ofCog _ _ _ _ _ _ _ _

/-- **C76, forward kinematics of the Puma 560**: the product of the six Denavit-Hartenberg transformations with the
published parameters, the joint values being the fourth parameters. -/
theorem C76_puma_fk (q1 q2 q3 q4 q5 q6 : ℝ) :
    fkPos puma560 [q1, q2, q3, q4, q5, q6] (-1) = some (E_NOERROR,
      Frame.dh 0 (π / 2) 0 q1 * Frame.dh 0.4318 0 0 q2 * Frame.dh 0.0203 (-(π / 2)) 0.15005 q3 *
        Frame.dh 0 (π / 2) 0.4318 q4 * Frame.dh 0 (-(π / 2)) 0 q5 * Frame.dh 0 0 0 q6) := by
  rw [puma_eq]
  have m1 : ∀ F I, (Segment.ofJoint (.simple .RotZ) F I).moving = true := fun _ _ => rfl
  simp [fkPos, segmentNr, fkLoop, p1, p2, p3, p4, p5, p6, moving_rotZ, moving_default, pose_dh, pose_default]

/-- Hence the wrist: the position of the tool does not depend on the last three joints, and is the well known one. -/
theorem C76_puma_position (q1 q2 q3 q4 q5 q6 : ℝ) : ∃ F, fkPos puma560 [q1, q2, q3, q4, q5, q6] (-1) = some (E_NOERROR, F) ∧
    F.p.x = cos q1 * (0.4318 * cos q2 + 0.0203 * cos (q2 + q3) - 0.4318 * sin (q2 + q3)) + 0.15005 * sin q1 ∧
    F.p.y = sin q1 * (0.4318 * cos q2 + 0.0203 * cos (q2 + q3) - 0.4318 * sin (q2 + q3)) - 0.15005 * cos q1 ∧
    F.p.z = 0.4318 * sin q2 + 0.0203 * sin (q2 + q3) + 0.4318 * cos (q2 + q3) := by
  refine ⟨_, C76_puma_fk q1 q2 q3 q4 q5 q6, ?_, ?_, ?_⟩ <;>
    simp [Frame.dh, cos_add, sin_add] <;> ring

theorem diag_pd (a b d : ℝ) (ha : 0 < a) (hb : 0 < b) (hd : 0 < d) :
    ∀ v : Vec, v ≠ 0 → 0 < Vec.dot v (rotationalInertia a b d 0 0 0 * v) := by
  intro v hv
  have e : Vec.dot v (rotationalInertia a b d 0 0 0 * v) = a * (v.x * v.x) + b * (v.y * v.y) + d * (v.z * v.z) := by
    simp [rotationalInertia, Vec.dot]; ring
  rw [e]
  have hx := mul_nonneg ha.le (mul_self_nonneg v.x)
  have hy := mul_nonneg hb.le (mul_self_nonneg v.y)
  have hz := mul_nonneg hd.le (mul_self_nonneg v.z)
  refine lt_of_le_of_ne (by linarith) fun h0 => hv ?_
  have z1 : v.x * v.x = 0 := by rcases mul_eq_zero.mp (show a * (v.x * v.x) = 0 by linarith) with h | h; exacts [absurd h ha.ne', h]
  have z2 : v.y * v.y = 0 := by rcases mul_eq_zero.mp (show b * (v.y * v.y) = 0 by linarith) with h | h; exacts [absurd h hb.ne', h]
  have z3 : v.z * v.z = 0 := by rcases mul_eq_zero.mp (show d * (v.z * v.z) = 0 by linarith) with h | h; exacts [absurd h hd.ne', h]
  exact Vec.ext (mul_self_eq_zero.mp z1) (mul_self_eq_zero.mp z2) (mul_self_eq_zero.mp z3)
theorem diag_psd (a b d : ℝ) (ha : 0 ≤ a) (hb : 0 ≤ b) (hd : 0 ≤ d) : (rotationalInertia a b d 0 0 0).PSD := by
  intro v
  have e : Vec.dot v (rotationalInertia a b d 0 0 0 * v) = a * (v.x * v.x) + b * (v.y * v.y) + d * (v.z * v.z) := by
    simp [rotationalInertia, Vec.dot]; ring
  rw [e]
  have hx := mul_nonneg ha (mul_self_nonneg v.x)
  have hy := mul_nonneg hb (mul_self_nonneg v.y)
  have hz := mul_nonneg hd (mul_self_nonneg v.z)
  linarith
theorem psd_diag (m : ℝ) (c : Vec) (a b d : ℝ) (hm : 0 ≤ m) (ha : 0 ≤ a) (hb : 0 ≤ b) (hd : 0 ≤ d) :
    (RBI.ofCog m c (rotationalInertia a b d 0 0 0)).PSD :=
  fun t => C37_energy_nonneg m c _ hm (diag_psd a b d ha hb hd) t
theorem pd_diag (m : ℝ) (c : Vec) (a b d : ℝ) (hm : 0 < m) (ha : 0 < a) (hb : 0 < b) (hd : 0 < d) :
    (RBI.ofCog m c (rotationalInertia a b d 0 0 0)).PD := C40_body_pd _ _ _ hm (diag_pd a b d ha hb hd)

/-- **C76**: the links of the Puma 560 are physical bodies … -/
theorem C76_puma_bodies : ∀ s ∈ puma560.segments, s.I.PSD ∧ 0 ≤ s.joint.inertia := by
  rw [puma_eq]
  intro s hs
  simp only [List.mem_cons, List.not_mem_nil, or_false] at hs
  rcases hs with rfl | rfl | rfl | rfl | rfl | rfl | rfl | rfl | rfl | rfl | rfl <;>
    exact ⟨psd_diag _ _ _ _ _ (by norm_num) (by norm_num) (by norm_num) (by norm_num), le_refl 0⟩

theorem kin_cons_zero (q δ : ℕ → ℝ) (s : Segment) (ss : List Segment) (j : ℕ) (u : Twist)
    (h : ∀ x ∈ s :: ss, x.I.PSD ∧ 0 ≤ x.joint.inertia) (h0 : kin q δ δ (s :: ss) j u u = 0) :
    (up q δ s j u).dot (s.I * up q δ s j u) = 0 ∧ kin q δ δ ss (nx s j) (up q δ s j u) (up q δ s j u) = 0 := by
  unfold kin at h0
  have h1 := (h s (by simp)).1 (up q δ s j u)
  have h2 := kin_nonneg q δ ss (nx s j) (up q δ s j u) (fun x hx => h x (by simp [hx]))
  have h3 : 0 ≤ qv s δ j * (s.joint.inertia * qv s δ j) := by
    nlinarith [mul_nonneg (h s (by simp)).2 (mul_self_nonneg (qv s δ j))]
  exact ⟨by linarith, by linarith⟩

theorem up_rot (q δ : ℕ → ℝ) (a α d : ℝ) (I : RBI) (j : ℕ) (u : Twist) :
    (up q δ (.ofJoint (.simple .RotZ) (Frame.dh a α d 0) I) j u).rot =
      (Frame.dh a α d (q j)).M.inv * (u.rot + δ j • (⟨0, 0, 1⟩ : Vec)) := by
  unfold up Ss Xs
  rw [Frame.invTwist_eq, Rot.invTwist_eq]
  simp only [qv, moving_rotZ, if_true, pose_dh]
  have : ((Segment.ofJoint (.simple .RotZ) (Frame.dh a α d 0) I).twist (q j) 1).rot = ⟨0, 0, 1⟩ := by
    rw [ofJoint_rotZ]
    ext <;> simp [Segment.twist, Joint.twist, Joint.simple, Twist.refPoint]
  show _ * _ + δ j • (_ * _) = _
  rw [this]
  ext <;> simp <;> ring

/-- … and although the first one has no mass and an inertia about one axis only, the mass matrix is positive definite in every
configuration. -/
theorem C76_puma_posdef (q : List ℝ) (hq : q.length = 6) (grav : Vec) (H0 : JMat) (hH : H0.n = 6) :
    ∃ H, (DynState.new puma560 grav).mass puma560 q H0 = some (E_NOERROR, H) ∧ PosDefOn 6 H.d := by
  obtain ⟨s1, s2, hc, hv, hI⟩ := C76_puma_shape
  obtain ⟨H, e1, _, e3⟩ := jntToMass_eq puma560 hc hv hI q H0 hq hH
  refine ⟨H, e1, fun x ⟨i, hi, hx⟩ => ?_⟩
  have hB := C76_puma_bodies
  rw [s1] at e3
  rw [e3 x x]
  refine lt_of_le_of_ne (kin_nonneg _ _ _ _ _ hB) fun h0 => hx ?_
  replace h0 := h0.symm
  rw [puma_eq] at h0 hB hv
  obtain ⟨_, k1⟩ := kin_cons_zero _ _ _ _ _ _ hB h0
  have hB1 := fun s hs => hB s (List.mem_cons_of_mem _ hs)
  obtain ⟨_, k2⟩ := kin_cons_zero _ _ _ _ _ _ hB1 k1
  have hB2 := fun s hs => hB1 s (List.mem_cons_of_mem _ hs)
  obtain ⟨d3, k3⟩ := kin_cons_zero _ _ _ _ _ _ hB2 k2
  have hB3 := fun s hs => hB2 s (List.mem_cons_of_mem _ hs)
  have n0 : nx Segment.default 0 = 0 := rfl
  have n1 : nx p1 0 = 1 := rfl
  have n2 : nx p2 1 = 2 := rfl
  rw [n0, n1] at d3
  rw [n0, n1, n2] at k3
  have P2 : p2.I.PD := pd_diag _ _ _ _ _ (by norm_num) (by norm_num) (by norm_num) (by norm_num)
  have V : up (rd q) x p2 1 (up (rd q) x p1 0 (up (rd q) x .default 0 0)) = 0 := by
    by_contra hne
    exact absurd d3 (P2 _ hne).ne'
  rw [V] at k3
  have rest := kin_eq_zero (rd q) x _ 2 0 (fun s hs => hv s (by
    exact List.mem_cons_of_mem _ (List.mem_cons_of_mem _ (List.mem_cons_of_mem _ hs)))) hB3 (Or.inr ⟨rfl, by
    intro s hs hm
    simp only [List.mem_cons, List.not_mem_nil, or_false] at hs
    rcases hs with rfl | rfl | rfl | rfl | rfl | rfl | rfl | rfl
    all_goals first
      | exact absurd hm (by decide)
      | exact ⟨pd_diag _ _ _ _ _ (by norm_num) (by norm_num) (by norm_num) (by norm_num), one_ne_zero⟩⟩) k3
  have R := congrArg Twist.rot V
  have u0 : up (rd q) x .default 0 0 = 0 := by
    rw [up, Frame.invTwist_zero, zero_add, show qv Segment.default x 0 = 0 from rfl, zero_smul]
  rw [u0] at R
  have R2 : (up (rd q) x p2 1 (up (rd q) x p1 0 0)).rot = ⟨sin (rd q 1) * x 0, cos (rd q 1) * x 0, x 1⟩ := by
    unfold p2 p1
    rw [up_rot, up_rot]
    ext <;> simp [Frame.dh]
  rw [R2] at R
  have x1 : x 1 = 0 := congrArg Vec.z R
  have x0 : x 0 = 0 := by
    have r1 : sin (rd q 1) * x 0 = 0 := congrArg Vec.x R
    have r2 : cos (rd q 1) * x 0 = 0 := congrArg Vec.y R
    have := sin_sq_add_cos_sq (rd q 1)
    linear_combination sin (rd q 1) * r1 + cos (rd q 1) * r2 - x 0 * this
  interval_cases i
  · exact x0
  · exact x1
  · exact rest 0 (by decide)
  · exact rest 1 (by decide)
  · exact rest 2 (by decide)
  · exact rest 3 (by decide)

/-- A chain whose mass matrix is positive definite in the given configuration: the forward dynamics solver finds the
accelerations. -/
theorem fd_of_posdef (c : Chain) (hc : c.WF) (hv : c.Valid) (hI : c.SymmI) (grav : Vec) (q qd τ : List ℝ)
    (fext : List Wrench) (qdd0 : List ℝ) (H0 : ℕ → ℕ → ℝ) (T0 : ℕ → ℝ) (L0 : LDL) (r0 x0 : ℕ → ℝ)
    (hP : ∃ H, (DynState.new c grav).mass c q ⟨c.nrOfJoints, H0⟩ = some (E_NOERROR, H) ∧ PosDefOn c.nrOfJoints H.d)
    (hq : q.length = c.nrOfJoints) (hqd : qd.length = c.nrOfJoints) (hqdd : qdd0.length = c.nrOfJoints)
    (hτ : τ.length = c.nrOfJoints) (hf : fext.length = c.nrOfSegments) :
    ∃ qdd, fdRne (.new c grav) c q qd τ fext qdd0 H0 T0 L0 r0 x0 = some (.ret E_NOERROR qdd) := by
  obtain ⟨H, e1, hP⟩ := hP
  have e2 := idRne_eq c hc grav q qd (List.replicate c.nrOfJoints 0) fext ((List.range c.nrOfJoints).map T0) hq hqd (by simp)
    (by simp) hf
  rw [fdRne_eq c grav q qd τ fext qdd0 H0 T0 L0 r0 x0 hq hqd hqdd hτ hf H _ e1 e2]
  have hsym := fun i hi j hj => C40_symmetric c hc hv hI q hq grav ⟨c.nrOfJoints, H0⟩ H rfl e1 i j hi hj
  obtain ⟨x, r, hs, _⟩ := C41_posdef _ _ hsym hP (fun i => τ.getD i 0 -
    ((rneF (rd q) (rd qd) (rd (List.replicate c.nrOfJoints 0)) c.segments fext 0 0 (-⟨grav, 0⟩)).1).getD i 0) L0 r0 x0
  rw [hs]
  exact ⟨_, rfl⟩

/-- Hence the forward dynamics of the Puma 560 is solved in every state, for all torques and external wrenches, and the
accelerations found need exactly the given torques. -/
theorem C76_puma_dynamics (grav : Vec) (q qd τ : List ℝ) (fext : List Wrench) (qdd0 τ0 : List ℝ) (H0 : ℕ → ℕ → ℝ) (T0 : ℕ → ℝ)
    (L0 : LDL) (r0 x0 : ℕ → ℝ) (hq : q.length = 6) (hqd : qd.length = 6) (hqdd : qdd0.length = 6) (hτ : τ.length = 6)
    (hτ0 : τ0.length = 6) (hf : fext.length = 11) :
    ∃ qdd, fdRne (.new puma560 grav) puma560 q qd τ fext qdd0 H0 T0 L0 r0 x0 = some (.ret E_NOERROR qdd) ∧ qdd.length = 6 ∧
      idRne puma560 6 11 grav q qd qdd fext τ0 = some (E_NOERROR, τ) := by
  obtain ⟨s1, s2, hc, hv, hI⟩ := C76_puma_shape
  obtain ⟨qdd, h⟩ := fd_of_posdef puma560 hc hv hI grav q qd τ fext qdd0 H0 T0 L0 r0 x0
    (C76_puma_posdef q hq grav ⟨6, H0⟩ rfl) hq hqd hqdd hτ hf
  obtain ⟨_, h2, h3⟩ := C42_id_of_fd puma560 hc hv hI grav q qd τ fext qdd0 τ0 H0 T0 L0 r0 x0 hq hqd hqdd hτ hf hτ0 _ _ h
  exact ⟨qdd, h, h2, h3⟩

/-- The stretched wrist is singular: at `q5 = 0` opposite motions of joints 4 and 6 leave the tool where it is. -/
theorem C76_puma_wrist (q1 q2 q3 q4 q6 t : ℝ) :
    fkPos puma560 [q1, q2, q3, q4 + t, 0, q6 - t] (-1) = fkPos puma560 [q1, q2, q3, q4, 0, q6] (-1) := by
  rw [C76_puma_fk, C76_puma_fk]
  have e : Frame.dh 0 (π / 2) 0.4318 (q4 + t) * (Frame.dh 0 (-(π / 2)) 0 0 * Frame.dh 0 0 0 (q6 - t)) =
      Frame.dh 0 (π / 2) 0.4318 q4 * (Frame.dh 0 (-(π / 2)) 0 0 * Frame.dh 0 0 0 q6) := by
    have h : q4 + q6 = (q4 + t) + (q6 - t) := by ring
    have hc := cos_add (q4 + t) (q6 - t)
    have hs := sin_add (q4 + t) (q6 - t)
    have hc' := cos_add q4 q6
    have hs' := sin_add q4 q6
    rw [← h] at hc hs
    ext <;> simp [Frame.dh] <;> linarith
  have a : ∀ A B C D E F : Frame, A * B * C * D * E * F = A * B * C * (D * (E * F)) := fun A B C D E F => by
    simp only [mul_assoc]
  rw [a, a, e]

/-! ## The KUKA arm -/

theorem pose_craig (α d q : ℝ) (I : RBI) : (Segment.ofJoint (.simple .RotZ) (Frame.dhCraig 0 α d 0) I).pose q =
    Frame.ofRot (Rot.rotZ q) * Frame.dhCraig 0 α d 0 := by
  rw [ofJoint_rotZ]; simp [Segment.pose, Joint.simple, Joint.pose]
theorem craig_step (α d q : ℝ) : Frame.dhCraig 0 α d 0 * Frame.ofRot (Rot.rotZ q) = Frame.dhCraig 0 α d q := by
  ext <;> simp [Frame.dhCraig, Frame.ofRot, Rot.rotZ, mul_comm]

theorem pose_one (q : ℝ) (I : RBI) : (Segment.ofJoint (.simple .RotZ) 1 I).pose q = Frame.ofRot (Rot.rotZ q) := by
  rw [ofJoint_rotZ]; simp [Segment.pose, Joint.simple, Joint.pose]
theorem pose_base (α d q : ℝ) (I : RBI) : (Segment.ofJoint (.simple .Fixed) (Frame.dhCraig 0 α d 0) I).pose q =
    Frame.dhCraig 0 α d 0 := by
  rw [ofJoint_fixed]; simp [Segment.pose, Joint.simple, Joint.pose]
theorem moving_fixed (F : Frame) (I : RBI) : (Segment.ofJoint (.simple .Fixed) F I).moving = false := rfl

theorem symm_frame (F : Frame) (i : RBI) (h : i.I.tr = i.I) : (F * i).I.tr = (F * i).I := by
  obtain ⟨m, hh, I⟩ := i
  have h1 : I.a10 = I.a01 := congrArg Mat3.a01 h
  have h2 : I.a20 = I.a02 := congrArg Mat3.a02 h
  have h3 : I.a21 = I.a12 := congrArg Mat3.a12 h
  have key : ∀ (R A : Mat3), A.tr = A → (R * (A * R.tr)).tr = R * (A * R.tr) := by
    intro R A hA
    have h1 : A.a10 = A.a01 := congrArg Mat3.a01 hA
    have h2 : A.a20 = A.a02 := congrArg Mat3.a02 hA
    have h3 : A.a21 = A.a12 := congrArg Mat3.a12 hA
    ext <;> simp only [Mat3.tr, Mat3.mul_def, h1, h2, h3] <;> ring
  refine key _ _ ?_
  ext <;> simp [Mat3.tr, Mat3.add_def, Mat3.sub_def, Mat3.smul_def, Mat3.outer, Mat3.one_def, h1, h2, h3] <;> ring

/-- **C76, KUKA arm**: seven joints, eight segments, joint axes and tip frames valid, symmetric inertias. -/
theorem C76_kuka_shape : kukaLWR.nrOfJoints = 7 ∧ kukaLWR.nrOfSegments = 8 ∧ kukaLWR.WF ∧ kukaLWR.Valid ∧ kukaLWR.SymmI := by
  have v1 : ∀ α d I, (Segment.ofJoint (.simple .RotZ) (Frame.dhCraig 0 α d 0) I).Valid := fun α d I => by
    rw [ofJoint_rotZ]
    exact ⟨simple_valid _ (by decide) (by decide), (C11_proper 0 α d 0).2⟩
  have v2 : ∀ α d I, (Segment.ofJoint (.simple .Fixed) (Frame.dhCraig 0 α d 0) I).Valid := fun α d I => by
    rw [ofJoint_fixed]
    exact ⟨simple_valid _ (by decide) (by decide), (C11_proper 0 α d 0).2⟩
  have v3 : ∀ I, (Segment.ofJoint (.simple .RotZ) 1 I).Valid := fun I => by
    rw [ofJoint_rotZ]
    exact ⟨simple_valid _ (by decide) (by decide), Rot.IsProper.one⟩
  refine ⟨rfl, rfl, ⟨rfl, rfl⟩, ?_, ?_⟩
  · intro s hs
    simp only [kukaLWR, Chain.addSegment, Chain.empty, List.nil_append, List.cons_append, List.mem_cons, List.not_mem_nil, or_false] at hs
    rcases hs with rfl | rfl | rfl | rfl | rfl | rfl | rfl | rfl
    all_goals first | exact v1 _ _ _ | exact v2 _ _ _ | exact v3 _
  · intro s hs
    simp only [kukaLWR, Chain.addSegment, Chain.empty, List.nil_append, List.cons_append, List.mem_cons, List.not_mem_nil, or_false] at hs
    rcases hs with rfl | rfl | rfl | rfl | rfl | rfl | rfl | rfl
    all_goals first | exact symm_ofCog _ _ _ _ _ _ _ _ | exact symm_frame _ _ (symm_ofCog _ _ _ _ _ _ _ _)

/-- **C76, forward kinematics of the KUKA arm**: the product of the seven transformations in Craig's form of the
Denavit-Hartenberg parameters. -/
theorem C76_kuka_fk (q1 q2 q3 q4 q5 q6 q7 : ℝ) :
    fkPos kukaLWR [q1, q2, q3, q4, q5, q6, q7] (-1) = some (E_NOERROR,
      Frame.dhCraig 0 0 0.31 q1 * Frame.dhCraig 0 quarter 0 q2 * Frame.dhCraig 0 (-quarter) 0.4 q3 *
        Frame.dhCraig 0 (-quarter) 0 q4 * Frame.dhCraig 0 quarter 0.39 q5 * Frame.dhCraig 0 quarter 0 q6 *
        Frame.dhCraig 0 (-quarter) 0 q7) := by
  have e : fkPos kukaLWR [q1, q2, q3, q4, q5, q6, q7] (-1) = some (E_NOERROR, Frame.dhCraig 0 0 0.31 0 *
      (Frame.ofRot (Rot.rotZ q1) * Frame.dhCraig 0 quarter 0 0) *
      (Frame.ofRot (Rot.rotZ q2) * Frame.dhCraig 0 (-quarter) 0.4 0) * (Frame.ofRot (Rot.rotZ q3) * Frame.dhCraig 0 (-quarter) 0 0) *
      (Frame.ofRot (Rot.rotZ q4) * Frame.dhCraig 0 quarter 0.39 0) * (Frame.ofRot (Rot.rotZ q5) * Frame.dhCraig 0 quarter 0 0) *
      (Frame.ofRot (Rot.rotZ q6) * Frame.dhCraig 0 (-quarter) 0 0) * Frame.ofRot (Rot.rotZ q7)) := by
    simp [fkPos, segmentNr, kukaLWR, Chain.addSegment, Chain.empty, fkLoop, moving_rotZ, moving_fixed, pose_craig, pose_base, pose_one]
  rw [e]
  rw [← craig_step 0 0.31 q1, ← craig_step quarter 0 q2, ← craig_step (-quarter) 0.4 q3, ← craig_step (-quarter) 0 q4,
    ← craig_step quarter 0.39 q5, ← craig_step quarter 0 q6, ← craig_step (-quarter) 0 q7]
  simp only [mul_assoc]

/-- The squared distance of the tool from the shoulder depends on the elbow angle only. -/
theorem C76_kuka_elbow (q1 q2 q3 q4 q5 q6 q7 : ℝ) :
    ∃ F, fkPos kukaLWR [q1, q2, q3, q4, q5, q6, q7] (-1) = some (E_NOERROR, F) ∧
      (F.p - ⟨0, 0, 0.31⟩).dot (F.p - ⟨0, 0, 0.31⟩) =
        0.4 ^ 2 + 0.39 ^ 2 + 2 * 0.4 * 0.39 * (sin quarter ^ 2 * cos q4 + cos quarter ^ 2) := by
  refine ⟨_, C76_kuka_fk q1 q2 q3 q4 q5 q6 q7, ?_⟩
  have P : ∀ α d θ, (Frame.dhCraig 0 α d θ).M.IsProper := fun α d θ => (C11_proper 0 α d θ).2
  set A1 := Frame.dhCraig 0 0 0.31 q1 with hA1
  set A2 := Frame.dhCraig 0 quarter 0 q2 with hA2
  set A3 := Frame.dhCraig 0 (-quarter) 0.4 q3 with hA3
  set A4 := Frame.dhCraig 0 (-quarter) 0 q4 with hA4
  set A5 := Frame.dhCraig 0 quarter 0.39 q5 with hA5
  set A6 := Frame.dhCraig 0 quarter 0 q6 with hA6
  set A7 := Frame.dhCraig 0 (-quarter) 0 q7 with hA7
  have z : ∀ α θ, (Frame.dhCraig 0 α 0 θ).p = 0 := fun α θ => by ext <;> simp [Frame.dhCraig]
  have p1 : A1.p = ⟨0, 0, 0.31⟩ := by rw [hA1]; ext <;> simp [Frame.dhCraig]
  have p3 : A3.p = A3.M * (⟨0, 0, 0.4⟩ : Vec) := by rw [hA3]; ext <;> simp [Frame.dhCraig]
  have e : (A1 * A2 * A3 * A4 * A5 * A6 * A7).p - ⟨0, 0, 0.31⟩ =
      A1.M * (A2.M * (A3.M * ((⟨0, 0, 0.4⟩ : Vec) + A4.M * A5.p))) := by
    rw [← p1]
    have m : ∀ A B : Frame, (A * B).p = A.M * B.p + A.p := fun _ _ => rfl
    have n : ∀ A B : Frame, (A * B).M = A.M * B.M := fun _ _ => rfl
    have v0 : ∀ R : Rot, R * (0 : Vec) = 0 := fun R => by ext <;> simp
    simp only [m, n, z, hA2, hA4, hA6, hA7, v0, zero_add, p3, Rot.mul_app, Rot.app_add, add_zero]
    abel
  rw [e, (P _ _ _).dot, (P _ _ _).dot, (P _ _ _).dot]
  have d4 : (A4.M * A5.p).dot (A4.M * A5.p) = A5.p.dot A5.p := (P _ _ _).dot _ _
  have d5 : A5.p.dot A5.p = 0.39 ^ 2 := by
    rw [hA5]; simp [Frame.dhCraig, Vec.dot]; linear_combination 0.39 ^ 2 * sin_sq_add_cos_sq quarter
  have z4 : (A4.M * A5.p).z = 0.39 * (sin quarter ^ 2 * cos q4 + cos quarter ^ 2) := by
    rw [hA4, hA5]; simp [Frame.dhCraig]; ring
  rw [d5] at d4
  generalize A4.M * A5.p = w at *
  rw [← sub_eq_zero]
  simp only [Vec.dot, Vec.add_x, Vec.add_y, Vec.add_z] at d4 ⊢
  linear_combination d4 + 2 * 0.4 * z4

/-- Hence the reach: the tool is within 0.79 of the shoulder, and exactly there when the elbow is stretched. -/
theorem C76_kuka_reach (q1 q2 q3 q4 q5 q6 q7 : ℝ) :
    ∃ F, fkPos kukaLWR [q1, q2, q3, q4, q5, q6, q7] (-1) = some (E_NOERROR, F) ∧
      (F.p - ⟨0, 0, 0.31⟩).dot (F.p - ⟨0, 0, 0.31⟩) ≤ 0.79 ^ 2 ∧
      (q4 = 0 → (F.p - ⟨0, 0, 0.31⟩).dot (F.p - ⟨0, 0, 0.31⟩) = 0.79 ^ 2) := by
  obtain ⟨F, h, e⟩ := C76_kuka_elbow q1 q2 q3 q4 q5 q6 q7
  refine ⟨F, h, ?_, ?_⟩
  · rw [e]
    nlinarith [sin_sq_add_cos_sq quarter, cos_le_one q4, sq_nonneg (sin quarter)]
  · rintro rfl
    rw [e, cos_zero]
    linear_combination 2 * 0.4 * 0.39 * sin_sq_add_cos_sq quarter

/-- The links of this model are not physical bodies: the inertia about the centre of mass given for the second joint is
negative, so that a rotation about the centre of mass has negative kinetic energy. -/
theorem C76_kuka_inertia_violated : ∃ s ∈ kukaLWR.segments, ¬ s.I.PSD := by
  refine ⟨_, (by
    simp only [kukaLWR, Chain.addSegment, Chain.empty, List.nil_append, List.cons_append]
    exact List.mem_cons_of_mem _ (List.mem_cons_of_mem _ (List.mem_cons_self ..))), fun h => ?_⟩
  have h' := h ((Frame.dhCraig 0 (-quarter) 0.4 0).inv * (⟨-((⟨1, 0, 0⟩ : Vec) * (⟨0, -0.3120511, -0.0038871⟩ : Vec)), ⟨1, 0, 0⟩⟩ : Twist))
  rw [ofJoint_rotZ] at h'
  rw [C37_energy_frame _ (C11_proper 0 (-quarter) 0.4 0).2.inv, C37_energy] at h'
  norm_num [rotationalInertia, Vec.dot] at h'

/-- Non-vacuity: the Puma stretched out along x, six joint values and eleven wrenches. -/
example : ∃ F, fkPos puma560 [0, 0, 0, 0, 0, 0] (-1) = some (0, F) ∧ F.p = ⟨0.4521, -0.15005, 0.4318⟩ := by
  obtain ⟨F, h, hx, hy, hz⟩ := C76_puma_position 0 0 0 0 0 0
  refine ⟨F, h, Vec.ext ?_ ?_ ?_⟩
  · rw [hx]; norm_num
  · rw [hy]; norm_num
  · rw [hz]; norm_num
example : ∃ qdd, fdRne (.new puma560 ⟨0, 0, -9.81⟩) puma560 [0, 0, 0, 0, 0, 0] [1, 0, 0, 0, 0, 0] [0, 0, 0, 0, 0, 0]
    (List.replicate 11 0) [0, 0, 0, 0, 0, 0] (fun _ _ => 0) (fun _ => 0) ⟨fun _ _ => 0, fun _ => 0⟩ (fun _ => 0) (fun _ => 0) =
      some (.ret 0 qdd) :=
  let ⟨qdd, h, _⟩ := C76_puma_dynamics ⟨0, 0, -9.81⟩ [0, 0, 0, 0, 0, 0] [1, 0, 0, 0, 0, 0] [0, 0, 0, 0, 0, 0]
    (List.replicate 11 0) [0, 0, 0, 0, 0, 0] [0, 0, 0, 0, 0, 0] (fun _ _ => 0) (fun _ => 0) ⟨fun _ _ => 0, fun _ => 0⟩
    (fun _ => 0) (fun _ => 0) rfl rfl rfl rfl rfl rfl
  ⟨qdd, h⟩

end KDL
