import Verif.Lemmas.NewtonStep
import Verif.Props.RoundingIk
import Verif.Props.ForwardKinematics
import Verif.Props.IkPos
import Verif.Props.AxisAngle

/-! C101: the steps of the Newton-Raphson solvers converge. -/

noncomputable section
namespace KDL
open Real

/-! ## helpers -/

theorem rdist_comm (A B : Rot) : rdist A B = rdist B A := by
  unfold rdist; congr 1; ring

theorem rdist_of_op {A B : Rot} {k : ℝ} (h : ∀ v : Vec, vlen (A * v - B * v) ≤ k * vlen v) : rdist A B ≤ √3 * k := by
  have u1 : vlen (⟨1, 0, 0⟩ : Vec) = 1 := by simp [vlen]
  have u2 : vlen (⟨0, 1, 0⟩ : Vec) = 1 := by simp [vlen]
  have u3 : vlen (⟨0, 0, 1⟩ : Vec) = 1 := by simp [vlen]
  have h1 := h ⟨1, 0, 0⟩
  have h2 := h ⟨0, 1, 0⟩
  have h3 := h ⟨0, 0, 1⟩
  rw [u1, mul_one] at h1
  rw [u2, mul_one] at h2
  rw [u3, mul_one] at h3
  have k0 := (vlen_nonneg _).trans h1
  have s1 := pow_le_pow_left₀ (vlen_nonneg _) h1 2
  have s2 := pow_le_pow_left₀ (vlen_nonneg _) h2 2
  have s3 := pow_le_pow_left₀ (vlen_nonneg _) h3 2
  rw [vlen_sq] at s1 s2 s3
  simp at s1 s2 s3
  have e : √3 * k = √(3 * k ^ 2) := by rw [Real.sqrt_mul (by norm_num), Real.sqrt_sq k0]
  rw [e]
  refine Real.sqrt_le_sqrt ?_
  linarith

theorem tr_rot2 {u : Vec} (hu : u.dot u = 1) (a : ℝ) : tr (Rot.rot2 u a) = 1 + 2 * cos a := by
  simp only [Vec.dot] at hu
  simp only [tr, Rot.rot2]
  linear_combination (1 - cos a) * hu

theorem rel_rdist {A B : Rot} (hA : A.IsProper) : rdist (A.inv * B) 1 = rdist A B := by
  rw [← rdist_proper_left hA, ← mul_assoc, hA.orth, one_mul, mul_one, rdist_comm]

theorem diff_vel (X G : Frame) : (Frame.diff X G 1).vel = G.p - X.p := by
  ext <;> simp [Frame.diff, Vec.diff]

theorem diff_rot (X G : Frame) : (Frame.diff X G 1).rot = X.M * (X.M.inv * G.M).getRot := by
  ext <;> simp [Frame.diff, Rot.diff]

/-- Outside the tolerance of `GetRotAngle` the reported rotation vector leads to the goal. -/
theorem diff_regular {X G : Frame} (hX : X.M.IsProper) (hG : G.M.IsProper) (hr : (X.M.inv * G.M).Regular epsilon) :
    (∀ v, vlen (G.M * v - X.M * v - (Frame.diff X G 1).rot * (X.M * v)) ≤ vlen (Frame.diff X G 1).rot ^ 2 / 2 * vlen v) ∧
    vlen (Frame.diff X G 1).rot ≤ 112 / 100 * rdist X.M G.M := by
  have hQ := hX.inv.mul hG
  have h1 := C08_roundtrip_regular (X.M.inv * G.M) hQ epsilon le_rfl hr
  have h2 := C08_axis_unit (X.M.inv * G.M) epsilon epsilon_pos (by norm_num [epsilon]) (.inl hr)
  have h3 := C08_angle_range (X.M.inv * G.M) epsilon
  have e1 : (Frame.diff X G 1).rot = X.M * (((X.M.inv * G.M).getRotAngle epsilon).2 • ((X.M.inv * G.M).getRotAngle epsilon).1) := diff_rot X G
  have hd := rel_rdist (B := G.M) hX
  have hs := rdist_one_sq hQ
  rw [hd] at hs
  obtain ⟨u, hu⟩ : ∃ u, u = ((X.M.inv * G.M).getRotAngle epsilon).1 := ⟨_, rfl⟩
  obtain ⟨a, ha⟩ : ∃ a, a = ((X.M.inv * G.M).getRotAngle epsilon).2 := ⟨_, rfl⟩
  rw [← hu, ← ha] at h1 e1
  rw [← hu] at h2
  rw [← ha] at h3
  have hG' : G.M = X.M * Rot.rot2 u a := by rw [h1, ← mul_assoc, hX.orth, one_mul]
  have hl : vlen (Frame.diff X G 1).rot = a := by
    rw [e1, vlen_mul_proper hX, FlM.vlen_smul, vlen_unit h2, mul_one, abs_of_nonneg h3.1]
  constructor
  · intro v
    have e2 : G.M * v - X.M * v - (Frame.diff X G 1).rot * (X.M * v) = X.M * (Rot.rot2 u a * v - v - (a • u) * v) := by
      rw [e1, hX.cross, hG', Rot.mul_app, Rot.app_sub, Rot.app_sub]
    rw [e2, vlen_mul_proper hX, hl]
    exact rot2_second h2 a v
  · rw [hl]
    rw [← h1, tr_rot2 h2] at hs
    have hsin : a / π ≤ sin (a / 2) := by
      have := Real.mul_le_sin (x := a / 2) (by linarith [h3.1]) (by linarith [h3.2])
      have e : 2 / π * (a / 2) = a / π := by ring
      rwa [e] at this
    have hc : cos a = 1 - 2 * sin (a / 2) ^ 2 := by
      have := Real.cos_sq (a / 2)
      have h4 := Real.sin_sq_add_cos_sq (a / 2)
      rw [show 2 * (a / 2) = a by ring] at this
      linarith
    have hp : a = π * (a / π) := by field_simp
    have hpi : π < 3.1416 := Real.pi_lt_d4
    have ap : 0 ≤ a / π := div_nonneg h3.1 pi_pos.le
    refine abs_le_of_sq_le_sq' ?_ (by have := rdist_nonneg X.M G.M; positivity) |>.2
    have h5 : (a / π) ^ 2 ≤ sin (a / 2) ^ 2 := pow_le_pow_left₀ ap hsin 2
    have h6 : rdist X.M G.M ^ 2 = 8 * sin (a / 2) ^ 2 := by rw [hs, hc]; ring
    have h7 : a ^ 2 = π ^ 2 * (a / π) ^ 2 := by rw [← mul_pow, ← hp]
    have h8 : π ^ 2 ≤ 10 := by nlinarith [pi_pos]
    have h9 := mul_le_mul_of_nonneg_right h8 (sq_nonneg (a / π))
    rw [mul_pow, h6, h7]
    have := sq_nonneg (a / π)
    linarith

/-- Inside the tolerance nothing is reported, and the rotations differ little. -/
theorem diff_band {X G : Frame} (hX : X.M.IsProper) (hG : G.M.IsProper) (hr : ¬ (X.M.inv * G.M).Regular epsilon) (hn : rdist X.M G.M ≤ 1) :
    (Frame.diff X G 1).rot = 0 ∧ rdist X.M G.M ≤ 1733 / 10 ^ 9 := by
  have hQ := hX.inv.mul hG
  have hd := rel_rdist (B := G.M) hX
  have hs := rdist_one_sq hQ
  rw [hd] at hs
  obtain ⟨Q, hQe⟩ : ∃ Q, Q = X.M.inv * G.M := ⟨_, rfl⟩
  have ed := diff_rot X G
  rw [← hQe] at hQ hs hr hd ed
  unfold Rot.Regular at hr
  push Not at hr
  obtain ⟨b1, b2, b3⟩ := hr
  have r0 := rdist_nonneg X.M G.M
  have ht : 1 ≤ tr Q := by nlinarith
  have h1 := rdist_one_le hQ ht
  have h2 : vlen (skv Q) ≤ 1733 / 10 ^ 9 := by
    have e0 : epsilon = 1 / 1000000 := by norm_num [epsilon]
    rw [e0] at b1 b2 b3
    refine Real.sqrt_le_iff.mpr ⟨by norm_num, ?_⟩
    simp only [skv]
    rw [abs_lt] at b1 b2 b3
    have s1 : (Q.m21 - Q.m12) ^ 2 ≤ (1 / 1000000) ^ 2 := sq_le_sq' (by linarith [b3.2]) (by linarith [b3.1])
    have s2 : (Q.m02 - Q.m20) ^ 2 ≤ (1 / 1000000) ^ 2 := sq_le_sq' (by linarith [b2.1]) (by linarith [b2.2])
    have s3 : (Q.m10 - Q.m01) ^ 2 ≤ (1 / 1000000) ^ 2 := sq_le_sq' (by linarith [b1.2]) (by linarith [b1.1])
    norm_num at s1 s2 s3 ⊢
    linarith
  have h3 : rdist X.M G.M ≤ 1733 / 10 ^ 9 := by rw [← hd]; exact h1.trans h2
  refine ⟨?_, h3⟩
  have hent := FlM.entry_dist' Q 1
  have e0 : epsilon * 10 = 1 / 100000 := by norm_num [epsilon]
  have hz : Q.getRotAngle = (⟨0, 0, 1⟩, 0) := by
    unfold Rot.getRotAngle
    dsimp only
    rw [if_pos ⟨b1, b2, b3⟩, if_pos]
    rw [e0]
    rw [hd] at hent
    simp only [Rot.one_m01, Rot.one_m10, Rot.one_m02, Rot.one_m20, Rot.one_m12, Rot.one_m21, sub_zero] at hent
    obtain ⟨c1, c2, c3, c4, c5, c6⟩ := hent
    norm_num at h3
    refine ⟨?_, ?_, ?_, ?_⟩
    · exact (abs_add_le _ _).trans_lt (by norm_num; linarith)
    · exact (abs_add_le _ _).trans_lt (by norm_num; linarith)
    · exact (abs_add_le _ _).trans_lt (by norm_num; linarith)
    · have : Q.m00 + Q.m11 + Q.m22 - 3 = -(rdist X.M G.M ^ 2 / 2) := by rw [hs]; simp only [tr]; ring
      rw [this, abs_neg, abs_of_nonneg (by positivity)]
      have := mul_le_mul h3 h3 r0 (by norm_num)
      norm_num at this ⊢
      nlinarith
  rw [ed, Rot.getRot, hz]
  ext <;> simp

theorem rd_add {q d : List ℝ} (h : q.length = d.length) (s : ℝ) (j : ℕ) :
    rd (List.zipWith (fun x y => x + s * y) q d) j = rd q j + s * rd d j := by
  simp only [rd, List.getD_eq_getElem?_getD, List.getElem?_zipWith]
  rcases lt_or_ge j q.length with hj | hj
  · rw [List.getElem?_eq_getElem hj, List.getElem?_eq_getElem (by omega)]
    simp
  · rw [List.getElem?_eq_none hj, List.getElem?_eq_none (by omega)]
    simp

theorem fkPos_whole {c : Chain} (hc : c.WF) {q : List ℝ} (hq : q.length = c.nrOfJoints) :
    fkPos c q (-1) = some (E_NOERROR, fkF (rd q) c.segments 0) := by
  have hn : segmentNr c (-1) = c.nrOfSegments := by simp [segmentNr]
  rw [C25_fk c hc q (-1), if_neg (by simp [hq]), if_neg (by rw [hn]; simp), hn, ← fkF_eq_spec c q _ hc.1.le, hc.1, List.take_length]

/-! ## the theorems -/

/-- Sum of the turnings of the joints (radians) for the displacements `d` of the joint positions. -/
def turning (c : Chain) (d : List ℝ) : ℝ := turnSum (rd d) c.segments 0
/-- Sum of the slides of the joints. -/
def sliding (c : Chain) (d : List ℝ) : ℝ := slideSum (rd d) c.segments 0
/-- Sum of the lengths of the segments: offsets of the joints, tip frames, and the extensions of sliding joints at `q` and `q'`. -/
def reach (c : Chain) (q q' : List ℝ) : ℝ := spanSum (rd q) (rd q') c.segments 0

/-- `d` solves `J(q) d = t` for the Jacobian computed by the library. -/
def Solves (c : Chain) (q d : List ℝ) (t : Twist) : Prop :=
  ∃ J, jntToJac c (List.replicate c.nrOfJoints false) q (Jac.zeros c.nrOfJoints) (-1) = some (E_NOERROR, J) ∧ multiplyJacobian J d = some t

/-- Second order expansion of the forward kinematics, with explicit constants: the Jacobian times a displacement of the joints
predicts the motion of the tip up to half the reach times the square of the turnings plus turnings times slides; the rotation up to half the square
of the turnings. -/
theorem C101_expansion (c : Chain) (hc : c.WF) (hv : c.Valid) (q d : List ℝ) (hq : q.length = c.nrOfJoints) (hd : d.length = c.nrOfJoints) :
    ∃ X X' t, fkPos c q (-1) = some (E_NOERROR, X) ∧ fkPos c (jsum q d) (-1) = some (E_NOERROR, X') ∧ Solves c q d t ∧
      vlen (X'.p - X.p - t.vel) ≤ reach c q (jsum q d) * turning c d ^ 2 / 2 + turning c d * sliding c d ∧
      (∀ v, vlen (X'.M * v - X.M * v - t.rot * (X.M * v)) ≤ turning c d ^ 2 / 2 * vlen v) ∧ vlen t.rot ≤ turning c d ∧
      X.M.IsProper ∧ X'.M.IsProper := by
  have hld : q.length = d.length := by omega
  set Q : ℝ → List ℝ := fun s => List.zipWith (fun x y => x + s * y) q d with hQ
  have hr : ∀ s, rd (Q s) = fun j => rd q j + s * rd d j := fun s => funext (rd_add hld s)
  have hQl : ∀ s, (Q s).length = c.nrOfJoints := by intro s; simp [hQ, hq, hd]
  have hder : JntHasDeriv (fun s => rd (Q s)) (rd d) 0 := by
    intro j
    simp only [hr]
    simpa using ((hasDerivAt_id (0 : ℝ)).mul_const (rd d j)).const_add (rd q j)
  have hQ0 : Q 0 = q := by
    apply List.ext_getElem
    · simp [hQ, hld]
    · intro i h1 h2; simp [hQ]
  have hseg : segmentNr c (-1) = c.nrOfSegments := by simp [segmentNr]
  obtain ⟨J, F, t, h1, h2, h3, h4⟩ := C27_derivative c hc hv Q d 0 (Jac.zeros c.nrOfJoints) hQl hd (by simp [Jac.zeros]) hder (-1) (by rw [hseg])
  have hF : F = fun s => fkF (rd (Q s)) c.segments 0 := by
    funext s
    have := h2 s
    rw [fkPos_whole hc (hQl s)] at this
    simp only [Option.some.injEq, Prod.mk.injEq, true_and] at this
    exact this.symm
  have hrep := velF_rep (fun s => rd (Q s)) (rd d) 0 hder c.segments 0 hv
  have hprop : (fkF (rd (Q 0)) c.segments 0).M.IsProper := isProper_fkF _ _ _ hv
  have ht : t = (velF (rd (Q 0)) (rd d) c.segments 0).getTwist := by
    rw [hF] at h4
    ext1
    · exact h4.vel.unique hrep.2.2
    · exact Rot.HasAngVel.unique h4.rot hrep.1.2 hprop
  rw [hQ0] at ht h1
  have hm := moved_chain (rd q) (rd d) c.segments 0 hv
  have e1 : (fun i => rd q i + rd d i) = rd (jsum q d) := by
    funext i
    have := rd_add hld 1 i
    simpa [jsum] using this.symm
  rw [e1, ← ht] at hm
  exact ⟨_, _, t, fkPos_whole hc hq, fkPos_whole hc (by simp [jsum, hq, hd]), ⟨J, h1, h3⟩, hm.rem, hm.second, hm.rot, hm.proper, hm.proper'⟩

theorem Solves.unique {c : Chain} {q d : List ℝ} {t t' : Twist} (h : Solves c q d t) (h' : Solves c q d t') : t = t' := by
  obtain ⟨J, h1, h2⟩ := h
  obtain ⟨J', h1', h2'⟩ := h'
  rw [h1] at h1'
  simp only [Option.some.injEq, Prod.mk.injEq, true_and] at h1'
  rw [h1', h2'] at h2
  exact (Option.some.inj h2).symm

/-- One Newton step: if the displacement `d` solves `J(q) d = diff(pose, goal)`, the new pose misses the goal by terms of second order
only.  A rotation below the tolerance of `GetRotAngle` is not seen by the step and remains. -/
theorem C101_step (c : Chain) (hc : c.WF) (hv : c.Valid) (q d : List ℝ) (hq : q.length = c.nrOfJoints) (hd : d.length = c.nrOfJoints)
    (X G : Frame) (hX : fkPos c q (-1) = some (E_NOERROR, X)) (hG : G.M.IsProper) (hn : rdist X.M G.M ≤ 1)
    (hs : Solves c q d (Frame.diff X G 1)) :
    ∃ X', fkPos c (jsum q d) (-1) = some (E_NOERROR, X') ∧ X'.M.IsProper ∧
      vdist X'.p G.p ≤ reach c q (jsum q d) * turning c d ^ 2 / 2 + turning c d * sliding c d ∧
      ((X.M.inv * G.M).Regular epsilon → rdist X'.M G.M ≤ √3 * turning c d ^ 2) ∧
      (¬ (X.M.inv * G.M).Regular epsilon → (Frame.diff X G 1).rot = 0 ∧ rdist X.M G.M ≤ 1733 / 10 ^ 9 ∧
        rdist X'.M G.M ≤ √3 * turning c d ^ 2 + rdist X.M G.M) := by
  obtain ⟨Y, X', t, h1, h2, h3, h4, h5, h6, h7, h8⟩ := C101_expansion c hc hv q d hq hd
  rw [hX] at h1
  simp only [Option.some.injEq, Prod.mk.injEq, true_and] at h1
  subst h1
  have ht := h3.unique hs
  subst ht
  refine ⟨X', h2, h8, ?_, ?_, ?_⟩
  · have e : X'.p - X.p - (Frame.diff X G 1).vel = X'.p - G.p := by rw [diff_vel]; abel
    rwa [e, ← vdist_eq_vlen] at h4
  · intro hr
    obtain ⟨k1, k2⟩ := diff_regular h7 hG hr
    refine rdist_of_op fun v => ?_
    have e : X'.M * v - G.M * v = (X'.M * v - X.M * v - (Frame.diff X G 1).rot * (X.M * v)) -
        (G.M * v - X.M * v - (Frame.diff X G 1).rot * (X.M * v)) := by abel
    rw [e]
    refine (vlen_sub_le _ _).trans ?_
    have k3 := pow_le_pow_left₀ (vlen_nonneg _) h6 2
    have k4 := mul_le_mul_of_nonneg_right k3 (vlen_nonneg v)
    have := h5 v
    have := k1 v
    linarith
  · intro hr
    obtain ⟨k1, k2⟩ := diff_band h7 hG hr hn
    refine ⟨k1, k2, ?_⟩
    have k3 : rdist X'.M X.M ≤ √3 * turning c d ^ 2 := by
      refine rdist_of_op fun v => ?_
      have := h5 v
      rw [k1] at this
      have e : X'.M * v - X.M * v - 0 * (X.M * v) = X'.M * v - X.M * v := by ext <;> simp
      rw [e] at this
      have := mul_nonneg (sq_nonneg (turning c d)) (vlen_nonneg v)
      linarith
    exact (rdist_triangle _ X.M _).trans (by linarith)

end KDL
