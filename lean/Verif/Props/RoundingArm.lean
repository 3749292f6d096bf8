import Verif.Props.RoundingDyn
import Verif.Props.Robots

/-! C109 for an arm with rotating joints and for the Puma 560 of the directory `models`. -/

namespace KDL
open Real

/-! ## the bound -/

/-- The numbers of `C109_arm`. -/
def armB : DynB where
  u := 1 / 2 ^ 53
  d := 11 / 10 ^ 14
  p := ⟨1 / 10 ^ 13, 1 / 2⟩
  tw := ⟨⟨1 / 10 ^ 13, 1 / 2⟩, ⟨1 / 10 ^ 14, 1⟩⟩
  un := ⟨⟨1 / 10 ^ 13, 1 / 2⟩, ⟨1 / 10 ^ 14, 1⟩⟩
  k := 1
  m := ⟨1 / 10 ^ 14, 18⟩
  h := ⟨1 / 10 ^ 14, 8⟩
  n := ⟨5 / 10 ^ 14, 6⟩
  ff := 100
  ft := 100
  ji := 1
  g := 10

theorem armB_tau : ∀ N < 12, ∀ k < N, armB.tau N k ≤ 1 / 10 ^ 6 := by decide +kernel

noncomputable section

/-! ## vocabulary -/

/-- A segment of an arm: rotating about a coordinate axis or fixed, sizes bounded. -/
structure ArmSegment (s : Segment) : Prop where
  kind : s.joint.type = .RotX ∨ s.joint.type = .RotY ∨ s.joint.type = .RotZ ∨ s.joint.type = .Fixed
  scale : s.joint.scale = 1
  offset : s.joint.offset = 0
  valid : s.Valid
  length : vlen s.f_tip.p ≤ 1 / 2
  mass : |s.I.m| ≤ 18
  moment : vlen s.I.h ≤ 8
  norm : fro (asRot s.I.I) ≤ 6
  rotor : |s.joint.inertia| ≤ 1

/-- `s` is `s'` as stored: the same joint, the mass data and the tip frame computed. -/
structure Stored (s s' : Segment) : Prop where
  type : s.joint.type = s'.joint.type
  scale : s.joint.scale = s'.joint.scale
  offset : s.joint.offset = s'.joint.offset
  motor : s.joint.inertia = s'.joint.inertia
  mass : |s.I.m - s'.I.m| ≤ 1 / 10 ^ 14
  moment : vdist s.I.h s'.I.h ≤ 1 / 10 ^ 14
  inertia : rdist (asRot s.I.I) (asRot s'.I.I) ≤ 5 / 10 ^ 14
  tip : Near (5 / 10 ^ 15) (5 / 10 ^ 15) s.f_tip s'.f_tip

/-! ## helpers -/

theorem arm_pose {F : Fl} (hF : F.Ok) (hu : F.u = 1 / 2 ^ 53) {s s' : Segment} (hs : Stored s s') (ha : ArmSegment s') {x : ℝ} (hx : |x| ≤ 4) :
    Near (12 * 78 / 10 ^ 16) 0 (F.jointPose s.joint x) (s'.joint.pose x) ∧ (s'.joint.pose x).p = 0 := by
  have hv : { s'.joint with origin := s.joint.origin }.Valid := ha.valid.1
  have hsc : s.joint.scale = 1 := hs.scale.trans ha.scale
  have hof : s.joint.offset = 0 := hs.offset.trans ha.offset
  obtain ⟨o, ho⟩ : ∃ o, o = |s.joint.origin.x| + |s.joint.origin.y| + |s.joint.origin.z| := ⟨_, rfl⟩
  have o1 := abs_nonneg s.joint.origin.x
  have o2 := abs_nonneg s.joint.origin.y
  have o3 := abs_nonneg s.joint.origin.z
  have hk : s.joint.type = .RotX ∨ s.joint.type = .RotY ∨ s.joint.type = .RotZ ∨ s.joint.type = .Fixed := by rw [hs.type]; exact ha.kind
  have h := C98_joint F hF s.joint { s'.joint with origin := s.joint.origin } hs.type hs.scale hs.offset rfl hv (12 / 10 ^ 16) 4 o x (by norm_num)
    (fun h => by rcases h with h | h <;> rw [h] at hk <;> simp at hk)
    (by rw [hsc, hof]; simpa using hx) ⟨by linarith, by linarith, by linarith⟩ (by rw [hu]; norm_num)
  have e : ({ s'.joint with origin := s.joint.origin } : Joint).pose x = s'.joint.pose x := by
    unfold Joint.pose
    rcases ha.kind with k | k | k | k <;> rw [k]
  rw [e] at h
  have p' : (s'.joint.pose x).p = 0 := by
    unfold Joint.pose
    rcases ha.kind with k | k | k | k <;> rw [k] <;> rfl
  have p : (F.jointPose s.joint x).p = 0 := by
    unfold Fl.jointPose
    rcases hk with k | k | k | k <;> rw [k] <;> rfl
  refine ⟨⟨h.1.trans (by norm_num), ?_⟩, p'⟩
  rw [p, p', vdist_self]

theorem arm_twist {F : Fl} (hF : F.Ok) (hu : F.u = 1 / 2 ^ 53) {s s' : Segment} (hs : Stored s s') (ha : ArmSegment s') {y : ℝ} (hy : |y| ≤ 1) :
    ColNear (96 / 10 ^ 16) 0 1 0 (F.jointTwist s.joint y) (s'.joint.twist y) := by
  have hsc : s.joint.scale = 1 := hs.scale.trans ha.scale
  have hk : s.joint.type = .RotX ∨ s.joint.type = .RotY ∨ s.joint.type = .RotZ ∨ s.joint.type = .Fixed := by rw [hs.type]; exact ha.kind
  have h := C108_joint F hF s.joint s'.joint hs.type hs.scale ha.valid.1 (12 / 10 ^ 16) 1 y (by norm_num) (by rw [hu]; norm_num)
    (by rw [hsc, one_mul]; exact hy) (fun h => by rcases h with h | h <;> rw [h] at hk <;> simp at hk)
  have p' : (s'.joint.twist y).vel = 0 := by
    unfold Joint.twist
    rcases ha.kind with k | k | k | k <;> rw [k] <;> rfl
  have p : (F.jointTwist s.joint y).vel = 0 := by
    unfold Fl.jointTwist
    rcases hk with k | k | k | k <;> rw [k] <;> rfl
  refine ⟨⟨h.1.1.trans (by norm_num), ?_⟩, h.2.1, ?_⟩
  · rw [p, p', vdist_self]
  · rw [p']; simp [vlen]

theorem arm_near {F : FlD} (hF : F.Ok) (hu : F.u = 1 / 2 ^ 53) {q qd : List ℝ} (hq : ∀ x ∈ q, |x| ≤ 4) (hqd : ∀ y ∈ qd, |y| ≤ 1)
    {s s' : Segment} (hs : Stored s s') (ha : ArmSegment s') : DynNear F armB q qd s s' := by
  have hg : F.g3 ≤ 34 / 10 ^ 17 := by rw [Fl.g3, hu]; norm_num
  have g0 := Fl.g3_nonneg hF.base
  have s0 := Real.sqrt_nonneg 3
  have s3 := sqrt3_le
  have hx0 : ∀ x, x ∈ q ∨ x = 0 → |x| ≤ 4 := by
    rintro x (h | rfl)
    · exact hq x h
    · norm_num
  have tw : ∀ x y, |x| ≤ 4 → |y| ≤ 1 → TB ⟨⟨1 / 10 ^ 13, 1 / 2⟩, ⟨1 / 10 ^ 14, 1⟩⟩ (F.segTwist s x y) (s'.twist x y) := by
    intro x y hx hy
    have h := C108_segment F.toFl hF.base s s' ha.valid x y _ _ _ _ (1 / 2) _ _ _ _ (arm_pose hF.base hu hs ha hx).1 hs.tip ha.length
      (arm_twist hF.base hu hs ha hy)
    have m1 : mapErr F.g3 (12 * 78 / 10 ^ 16) (1 / 2) (5 / 10 ^ 15) ≤ 6 / 10 ^ 14 :=
      (mapErr_le g0 (by norm_num) (by norm_num) (by norm_num) hg le_rfl s3).trans (by norm_num)
    have m0 : 0 ≤ mapErr F.g3 (12 * 78 / 10 ^ 16) (1 / 2) (5 / 10 ^ 15) := mapErr_nonneg g0 (by norm_num) (by norm_num) (by norm_num)
    have m2 := crossErr_mono g0 (zero_le_one) (by norm_num : (0 : ℝ) ≤ 96 / 10 ^ 16) (by norm_num : (0 : ℝ) ≤ 1 / 2) m0 hg le_rfl m1
    have m3 : crossErr (34 / 10 ^ 17) 1 (96 / 10 ^ 16) (1 / 2) (6 / 10 ^ 14) ≤ 7 / 10 ^ 14 := by unfold crossErr; norm_num
    have m4 := m2.trans m3
    obtain ⟨⟨a1, a2⟩, a3, a4⟩ := h
    refine ⟨⟨a2.trans ?_, a4.trans ?_⟩, ⟨a1.trans ?_, a3.trans ?_⟩⟩
    · rw [hu]
      push_cast
      norm_num at m4 ⊢
      linarith
    all_goals norm_num
  refine ⟨?_, ha.valid, fun x hx => ?_, fun x y hxy => tw x y ?_ ?_, fun x hx => tw x 1 (hx0 x hx) (by norm_num), ?_, ?_, ?_,
    hs.motor, ?_⟩
  · simp [Segment.moving, Joint.moving, hs.type]
  · obtain ⟨hj, hp⟩ := arm_pose hF.base hu hs ha (hx0 x hx)
    have hl : vlen (s'.joint.pose x).p ≤ 1 / 2 := by rw [hp]; simp [vlen]
    obtain ⟨⟨a1, a2⟩, -⟩ := C98_segment F.toFl hF.base s s' ha.valid x _ _ _ _ (1 / 2) hj hs.tip ha.length hl
    refine ⟨a1.trans ?_, a2.trans ?_, ?_⟩
    · have : F.g3 * (Real.sqrt 3 + 5 / 10 ^ 15) ≤ 34 / 10 ^ 17 * (1733 / 1000 + 5 / 10 ^ 15) :=
        mul_le_mul hg (by linarith) (by positivity) (by norm_num)
      have h2 : 5 / 10 ^ 15 + F.g3 * (Real.sqrt 3 + 5 / 10 ^ 15) ≤ 56 / 10 ^ 16 := by norm_num at this ⊢; linarith
      have h3 : (Real.sqrt 3 + 12 * 78 / 10 ^ 16) * (5 / 10 ^ 15 + F.g3 * (Real.sqrt 3 + 5 / 10 ^ 15)) ≤
          (1733 / 1000 + 12 * 78 / 10 ^ 16) * (56 / 10 ^ 16) :=
        mul_le_mul (by linarith) h2 (by positivity) (by norm_num)
      simp only [armB]
      push_cast
      norm_num at h3 ⊢
      linarith
    · have : F.g3 * (Real.sqrt 3 + 12 * 78 / 10 ^ 16) ≤ 34 / 10 ^ 17 * (1733 / 1000 + 12 * 78 / 10 ^ 16) :=
        mul_le_mul hg (by linarith) (by positivity) (by norm_num)
      rw [hu]
      simp only [armB]
      push_cast
      norm_num at this ⊢
      linarith
    · have e : (s'.pose x).p = (s'.joint.pose x).M * s'.f_tip.p := by
        show (s'.joint.pose x).M * s'.f_tip.p + (s'.joint.pose x).p = _
        rw [hp, add_zero]
      rw [e, vlen_mul_proper (Joint.isProper_pose ha.valid.1 x)]
      simp only [armB]
      push_cast
      exact ha.length
  · rcases hxy with ⟨h, -⟩ | ⟨h, -⟩
    · exact hq x h
    · rw [h]; norm_num
  · rcases hxy with ⟨-, h⟩ | ⟨-, h⟩
    · exact hqd y h
    · rw [h]; norm_num
  · refine ⟨?_, ?_⟩ <;> simp only [armB] <;> push_cast
    exacts [hs.mass, ha.mass]
  · refine ⟨?_, ?_⟩ <;> simp only [armB] <;> push_cast
    exacts [hs.moment, ha.moment]
  · refine ⟨?_, ?_⟩ <;> simp only [armB] <;> push_cast
    exacts [hs.inertia, ha.norm]
  · rw [hs.motor]; simpa [armB] using ha.rotor

/-! ## C109 -/

/-- In double precision, an arm of at most eleven segments, each at most half a metre long and of at most 18 kg, joint angles at most 4,
rates and accelerations at most 1, loads at most 100 and gravity at most 10: every torque is within `1e-6` of that of the ideal arm. -/
theorem C109_arm (F : FlD) (hF : F.Ok) (hu : F.u = 1 / 2 ^ 53) (c c' : Chain) (hc : c.WF) (hc' : c'.WF) (grav : Vec)
    (q qd qdd : List ℝ) (fext : List Wrench) (τ : List ℝ) (h : List.Forall₂ Stored c.segments c'.segments)
    (ha : ∀ s ∈ c'.segments, ArmSegment s) (hn : c.nrOfSegments ≤ 11) (hg : vlen grav ≤ 10) (hq : ∀ x ∈ q, |x| ≤ 4)
    (hqd : ∀ y ∈ qd, |y| ≤ 1) (hk : ∀ z ∈ qdd, |z| ≤ 1)
    (hf : ∀ w ∈ fext, vlen w.force ≤ 100 ∧ vlen w.torque ≤ 100) (h1 : q.length = c.nrOfJoints) (h2 : qd.length = c.nrOfJoints)
    (h3 : qdd.length = c.nrOfJoints) (h4 : τ.length = c.nrOfJoints) (h5 : fext.length = c.nrOfSegments) :
    ∃ σ σ', F.idRne c c.nrOfJoints c.nrOfSegments grav q qd qdd fext τ = some (E_NOERROR, σ) ∧
      idRne c' c.nrOfJoints c.nrOfSegments grav q qd qdd fext τ = some (E_NOERROR, σ') ∧
      List.Forall₂ (fun x y => |x - y| ≤ 1 / 10 ^ 6) σ σ' := by
  have hd : List.Forall₂ (DynNear F armB q qd) c.segments c'.segments := by
    clear hn h1 h2 h3 h4 h5 hc hc'
    generalize c.segments = x at h
    generalize c'.segments = y at h ha
    induction h with
    | nil => exact .nil
    | cons g1 _ ih => exact .cons (arm_near hF hu hq hqd g1 (ha _ (by simp))) (ih fun s hs => ha s (by simp [hs]))
  refine (C109_torques F hF armB (by rw [hu]; simp [armB]) c c' hc hc' grav q qd qdd fext τ c.nrOfJoints c.nrOfSegments
    hd (by simpa [armB] using hg) (by simp [armB]) (by simpa [armB] using hk)
    (by simpa [armB] using hf) (1 / 10 ^ 6) (by norm_num) fun k hk => ?_).2 rfl rfl h1 h2 h3 h4 h5
  have := armB_tau c.nrOfSegments (by omega) k hk
  have e : ((armB.tau c.nrOfSegments k : ℚ) : ℝ) ≤ ((1 / 10 ^ 6 : ℚ) : ℝ) := by exact_mod_cast this
  push_cast at e
  exact e

theorem arm_dh (a α d m : ℝ) (c : Vec) (x y z : ℝ) (hl : a ^ 2 + d ^ 2 ≤ 1 / 4) (hm : |m| ≤ 18)
    (hh : (m * c.x) ^ 2 + (m * c.y) ^ 2 + (m * c.z) ^ 2 ≤ 64)
    (hn : fro (asRot (RBI.ofCog m c (rotationalInertia x y z 0 0 0)).I) ≤ 6) :
    ArmSegment (.ofJoint (.simple .RotZ) (Frame.dh a α d 0) (RBI.ofCog m c (rotationalInertia x y z 0 0 0))) := by
  have hv := valid_dh a α d (RBI.ofCog m c (rotationalInertia x y z 0 0 0))
  rw [ofJoint_rotZ] at hv ⊢
  refine ⟨.inr (.inr (.inl rfl)), rfl, rfl, hv, ?_, hm, ?_, hn, by simp [Joint.simple]⟩
  · refine Real.sqrt_le_iff.mpr ⟨by norm_num, ?_⟩
    simp only [Frame.dh, Real.cos_zero, Real.sin_zero]
    nlinarith
  · refine Real.sqrt_le_iff.mpr ⟨by norm_num, ?_⟩
    simp only [RBI.ofCog, Vec.smul_x, Vec.smul_y, Vec.smul_z]
    linarith

theorem arm_default : ArmSegment .default := by
  have hv := valid_default
  unfold Segment.default at hv ⊢
  rw [ofJoint_fixed] at hv ⊢
  refine ⟨.inr (.inr (.inr rfl)), rfl, rfl, hv, ?_, ?_, ?_, ?_, by simp [Joint.simple]⟩
  · simp [vlen]
  · simp [RBI.zero, RBI.ofCog]
  · simp [RBI.zero, RBI.ofCog, vlen]
  · simp [RBI.zero, RBI.ofCog, asRot, fro, rotationalInertia, Mat3.sub_def, Mat3.smul_def, Mat3.outer, Mat3.one_def]

theorem puma_arm : ∀ s ∈ puma560.segments, ArmSegment s := by
  rw [puma_eq]
  intro s hs
  simp only [List.mem_cons, List.not_mem_nil, or_false] at hs
  rcases hs with rfl | rfl | rfl | rfl | rfl | rfl | rfl | rfl | rfl | rfl | rfl
  all_goals first
    | exact arm_default
    | refine arm_dh _ _ _ _ _ _ _ _ (by norm_num) (by norm_num [abs_le]) (by norm_num) ?_
      refine Real.sqrt_le_iff.mpr ⟨by norm_num, ?_⟩
      simp only [asRot, RBI.ofCog, rotationalInertia, Mat3.sub_def, Mat3.smul_def, Mat3.outer, Mat3.one_def, Vec.dot]
      norm_num

/-- The Puma 560 of models/puma560.cpp in double precision: with joint angles at most 4, rates and accelerations at most 1, loads at most
100 and gravity at most 10 the inverse dynamics is within `1e-6` of the exact one. -/
theorem C109_puma (F : FlD) (hF : F.Ok) (hu : F.u = 1 / 2 ^ 53) (c : Chain) (hc : c.WF) (h : List.Forall₂ Stored c.segments puma560.segments)
    (grav : Vec) (hg : vlen grav ≤ 10) (q qd qdd τ : List ℝ) (fext : List Wrench) (hq : q.length = 6 ∧ ∀ x ∈ q, |x| ≤ 4)
    (hqd : qd.length = 6 ∧ ∀ y ∈ qd, |y| ≤ 1) (hk : qdd.length = 6 ∧ ∀ z ∈ qdd, |z| ≤ 1) (hτ : τ.length = 6)
    (hf : fext.length = 11 ∧ ∀ w ∈ fext, vlen w.force ≤ 100 ∧ vlen w.torque ≤ 100) :
    ∃ σ σ', F.idRne c 6 11 grav q qd qdd fext τ = some (E_NOERROR, σ) ∧
      idRne puma560 6 11 grav q qd qdd fext τ = some (E_NOERROR, σ') ∧ List.Forall₂ (fun x y => |x - y| ≤ 1 / 10 ^ 6) σ σ' := by
  obtain ⟨s1, s2, s3, -, -⟩ := C76_puma_shape
  have hS : c.nrOfSegments = 11 := by rw [hc.1, h.length_eq, ← s3.1, s2]
  have hJ : c.nrOfJoints = 6 := by
    rw [← s1, hc.2, s3.2]
    generalize c.segments = x at h
    generalize puma560.segments = y at h
    induction h with
    | nil => rfl
    | cons g _ ih => rw [nMoving_cons, nMoving_cons, ih, Segment.moving, Segment.moving, Joint.moving, Joint.moving, g.type]
  have := C109_arm F hF hu c puma560 hc s3 grav q qd qdd fext τ h puma_arm (by omega) hg hq.2 hqd.2 hk.2 hf.2 (by omega) (by omega)
    (by omega) (by omega) (by omega)
  rwa [hS, hJ] at this

/-- Non-vacuity: the stored arm may be the ideal one, the machine one that rounds every number up; gravity as in the program. -/
example : List.Forall₂ Stored puma560.segments puma560.segments ∧ puma560.WF ∧ (∀ s ∈ puma560.segments, ArmSegment s) ∧
    vlen ⟨0, 0, -9.81⟩ ≤ 10 ∧ ∃ F : FlD, F.Ok ∧ F.u = 1 / 2 ^ 53 ∧ F.rnd 1 ≠ 1 := by
  refine ⟨List.forall₂_same.mpr fun s _ => ⟨rfl, rfl, rfl, rfl, by norm_num, by rw [vdist_self]; norm_num, by norm_num [rdist], by norm_num [rdist], by rw [vdist_self]; norm_num⟩, C76_puma_shape.2.2.1, puma_arm,
    vlen_le_sum (a := 0) (b := 0) (c := 9.81) (by simp) (by simp) (by norm_num [abs_le]) (by norm_num) (by norm_num),
    ⟨sloppy, fun I v => sloppy.rotVec (asRot I) v⟩, C109_matvec _ sloppy_ok, rfl, ?_⟩
  simp [sloppy]

end
end KDL
