import Verif.Lemmas.MassMatrix
import Verif.Lemmas.JacDot

/-! Lemmas on the recursion along differentiable trajectories: the accelerations of the Newton-Euler recursion are the
derivatives of the body twists, the net wrenches the derivatives of the momenta. -/

noncomputable section
namespace KDL
open Finset

theorem Rot.invTwist_eq (R : Rot) (t : Twist) : R.invTwist t = ⟨R.inv * t.vel, R.inv * t.rot⟩ := by
  ext <;> simp [Rot.invTwist, Rot.invVec]
theorem Frame.invTwist_eq (X : Frame) (t : Twist) :
    X.invTwist t = ⟨X.M.inv * (t.vel - X.p * t.rot), X.M.inv * t.rot⟩ := by
  ext <;> simp [Frame.invTwist, Rot.invVec]

/-- Joint axes are fixed by the joint's own rotation. -/
theorem Joint.inv_twist {j : Joint} (h : j.Valid) (q x : ℝ) :
    (j.pose q).M.inv * (j.twist x).rot = (j.twist x).rot ∧ (j.pose q).M.inv * (j.twist x).vel = (j.twist x).vel := by
  obtain ⟨name, type, scale, offset, inertia, damping, stiffness, axis, origin⟩ := j
  cases type <;> simp only [Joint.pose, Joint.twist, Frame.ofRot, Frame.ofVec]
  case RotAxis =>
    have h1 : axis.dot axis = 1 := h (Or.inl rfl)
    have e : Rot.rot2 axis (scale * q + offset) * axis = axis := Rot.rot2_axis axis h1 _
    refine ⟨?_, by ext <;> simp⟩
    have hp := Rot.isProper_rot2 axis h1 (scale * q + offset)
    have : (Rot.rot2 axis (scale * q + offset)).inv * axis = axis := by
      have := hp.inv_app_app axis
      rwa [e] at this
    rw [Rot.app_smul, this]
  all_goals exact ⟨by ext <;> simp [Rot.rotX, Rot.rotY, Rot.rotZ], by ext <;> simp [Rot.rotX, Rot.rotY, Rot.rotZ]⟩

/-- The joint screw in the tip frame does not depend on the joint position. -/
def bodyS (s : Segment) : Twist := s.f_tip.M.invTwist ((s.joint.twist 1).refPoint s.f_tip.p)

theorem Ss_eq (q : ℕ → ℝ) {s : Segment} (h : s.Valid) (j : ℕ) : Ss q s j = bodyS s := by
  have hP : (s.joint.pose (qv s q j)).M.IsProper := Joint.isProper_pose h.1 _
  obtain ⟨e1, e2⟩ := Joint.inv_twist h.1 (qv s q j) 1
  unfold Ss Xs bodyS Segment.twist Segment.pose
  rw [Rot.invTwist_eq, Rot.invTwist_eq]
  have : (s.joint.pose (qv s q j) * s.f_tip).M.inv = s.f_tip.M.inv * (s.joint.pose (qv s q j)).M.inv := by
    show ((s.joint.pose (qv s q j)).M * s.f_tip.M).inv = _
    exact Rot.inv_mul _ _
  rw [this]
  simp only [Twist.refPoint, Rot.mul_app, Rot.app_add, e1, e2]
  rw [← hP.inv.cross, e1, hP.inv_app_app]

namespace Twist.HasDeriv
theorem const (v : Twist) (t : ℝ) : HasDeriv (fun _ => v) 0 t := ⟨.const _, .const _⟩
theorem add {f g : ℝ → Twist} {f' g' : Twist} {t : ℝ} (hf : HasDeriv f f' t) (hg : HasDeriv g g' t) :
    HasDeriv (fun s => f s + g s) (f' + g') t := ⟨hf.vel.add hg.vel, hf.rot.add hg.rot⟩
theorem smul_const {c : ℝ → ℝ} {c' t : ℝ} (hc : HasDerivAt c c' t) (v : Twist) :
    HasDeriv (fun s => c s • v) (c' • v) t := by
  refine ⟨(Vec.HasDeriv.smul hc (Vec.HasDeriv.const v.vel)).congr_deriv ?_,
    (Vec.HasDeriv.smul hc (Vec.HasDeriv.const v.rot)).congr_deriv ?_⟩ <;> ext <;> simp

theorem invTwist {X : ℝ → Frame} {u : ℝ → Twist} {w u' : Twist} {t : ℝ} (hX : Frame.HasTwist X w t)
    (hP : (X t).IsProper) (hu : HasDeriv u u' t) :
    HasDeriv (fun s => (X s).invTwist (u s)) ((X t).invTwist u' + (X t).invTwist (u t) * (X t).M.invTwist w) t := by
  have hPM : (X t).M.IsProper := hP
  have h2 := hX.rot.invApp hu.rot hPM
  have h1 := hX.rot.invApp (hu.vel.sub (hX.vel.cross hu.rot)) hPM
  simp only [Frame.invTwist_eq, Rot.invTwist_eq]
  refine ⟨h1.congr_deriv ?_, h2.congr_deriv ?_⟩
  · show _ = _ + ((X t).M.inv * (u t).rot * ((X t).M.inv * w.vel) +
      (X t).M.inv * ((u t).vel - (X t).p * (u t).rot) * ((X t).M.inv * w.rot))
    rw [hPM.inv.cross, hPM.inv.cross, ← Rot.app_add, ← Rot.app_add]
    congr 1
    ext <;> simp <;> ring
  · show _ = _ + (X t).M.inv * (u t).rot * ((X t).M.inv * w.rot)
    rw [hPM.inv.cross, ← Rot.app_add]
    congr 1
    ext <;> simp <;> ring
end Twist.HasDeriv

theorem Twist.cross_self (v : Twist) : v * v = 0 := by
  show Twist.mk (v.rot * v.vel + v.vel * v.rot) (v.rot * v.rot) = 0
  ext <;> simp <;> ring
theorem Twist.add_cross (a b c : Twist) : (a + b) * c = a * c + b * c := by
  show Twist.mk _ _ = Twist.mk (_ + _) (_ + _)
  congr 1 <;> ext <;> simp <;> ring

theorem qv_hasDeriv (s : Segment) {Q : ℝ → ℕ → ℝ} {qd : ℕ → ℝ} {τ : ℝ} (h : JntHasDeriv Q qd τ) (j : ℕ) :
    HasDerivAt (fun t => qv s (Q t) j) (qv s qd j) τ := by
  unfold qv
  split_ifs
  · exact h j
  · exact hasDerivAt_const _ _

theorem up_hasDeriv {s : Segment} (hs : s.Valid) {Q Qd : ℝ → ℕ → ℝ} {qdd : ℕ → ℝ} {τ : ℝ}
    (h1 : JntHasDeriv Q (Qd τ) τ) (h2 : JntHasDeriv Qd qdd τ) (j : ℕ) {v : ℝ → Twist} {a : Twist}
    (hv : Twist.HasDeriv v a τ) :
    Twist.HasDeriv (fun t => up (Q t) (Qd t) s j (v t)) (ap (Q τ) (Qd τ) qdd s j (v τ) a) τ := by
  have hX := Segment.hasTwist hs.1 (qv_hasDeriv s h1 j)
  have hP := Segment.isProper_pose hs (qv s (Q τ) j)
  have e1 := Twist.HasDeriv.invTwist hX hP hv
  have e2 := Twist.HasDeriv.smul_const (qv_hasDeriv s h2 j) (bodyS s)
  have e3 := e1.add e2
  unfold up ap Xs
  simp only [Ss_eq _ hs]
  refine e3.congr_deriv ?_
  have e4 := invTwist_twist (Q τ) (Qd τ) s j
  rw [Ss_eq _ hs] at e4
  unfold up Xs at *
  rw [e4, Ss_eq _ hs, Twist.add_cross, Twist.cross_self]
  abel

/-- Acceleration of the last segment of the list. -/
def aP (q qd qdd : ℕ → ℝ) : List Segment → ℕ → Twist → Twist → Twist
  | [], _, _, a => a
  | s :: ss, j, v, a => aP q qd qdd ss (nx s j) (up q qd s j v) (ap q qd qdd s j v a)

theorem uP_hasDeriv {Q Qd : ℝ → ℕ → ℝ} {qdd : ℕ → ℝ} {τ : ℝ}
    (h1 : JntHasDeriv Q (Qd τ) τ) (h2 : JntHasDeriv Qd qdd τ) : ∀ (ss : List Segment) (j : ℕ) (v : ℝ → Twist) (a : Twist),
    (∀ s ∈ ss, s.Valid) → Twist.HasDeriv v a τ →
    Twist.HasDeriv (fun t => uP (Q t) (Qd t) ss j (v t)) (aP (Q τ) (Qd τ) qdd ss j (v τ) a) τ := by
  intro ss
  induction ss with
  | nil => intro j v a _ h; exact h
  | cons s ss ih =>
    intro j v a hv h
    exact ih _ _ _ (fun x hx => hv x (by simp [hx])) (up_hasDeriv (hv s (by simp)) h1 h2 j h)

theorem lw_eq_sum (q qd qdd δ : ℕ → ℝ) : ∀ (ss : List Segment) (fes : List Wrench) (j : ℕ) (u v a : Twist),
    fes.length = ss.length →
    lw q qd qdd δ ss fes j u v a = ∑ i ∈ range ss.length, (match ss[i]? with
      | some s => (uP q δ (ss.take (i + 1)) j u).dot
            (fl s (uP q qd (ss.take (i + 1)) j v) (aP q qd qdd (ss.take (i + 1)) j v a) (fes.getD i 0)) +
          qv s δ (j + nMoving (ss.take i)) * (s.joint.inertia * qv s qdd (j + nMoving (ss.take i)))
      | none => 0) := by
  intro ss
  induction ss with
  | nil => intro fes j u v a _; simp [lw]
  | cons s ss ih =>
    intro fes j u v a h
    cases fes with
    | nil => simp at h
    | cons fe fes =>
      have hstep : ∀ i, j + nMoving ((s :: ss).take (i + 1)) = nx s j + nMoving (ss.take i) := by
        intro i; rw [List.take_succ_cons, nMoving_cons]; simp only [nx]; split_ifs <;> omega
      rw [List.length_cons, sum_range_succ']
      simp only [List.getElem?_cons_succ, hstep, List.getElem?_cons_zero, List.getD_cons_succ, List.getD_cons_zero]
      unfold lw
      rw [ih fes _ _ _ _ (by simpa using h), add_comm]
      congr 1

/-- `F f` has derivative `F (ḟ + v × f)` where `v` is the twist of the frame in itself. -/
theorem Wrench.hasDeriv_app {F : ℝ → Frame} {w : Twist} {t : ℝ} (hF : Frame.HasTwist F w t) (hP : (F t).IsProper)
    {f : ℝ → Wrench} {f' : Wrench} (hf : Wrench.HasDeriv f f' t) :
    Wrench.HasDeriv (fun s => F s * f s) (F t * (f' + (F t).M.invTwist w * f t)) t := by
  have hPM : (F t).M.IsProper := hP
  have h1 := hF.rot.app hf.force
  have h2 := hF.rot.app hf.torque
  have h3 := hF.vel.cross h1
  have ec : ∀ x y : Vec, (F t).M * (((F t).M.inv * x) * y) = x * ((F t).M * y) := fun x y => by
    rw [← hPM.cross, hPM.app_inv_app]
  refine ⟨h1.congr_deriv ?_, (h2.add h3).congr_deriv ?_⟩
  · show _ = (F t).M * (f'.force + ((F t).M.invTwist w).rot * (f t).force)
    rw [Rot.invTwist_eq, Rot.app_add, ec]; abel
  · show _ = (F t).M * (f'.torque + (((F t).M.invTwist w).rot * (f t).torque + ((F t).M.invTwist w).vel * (f t).force)) +
      (F t).p * ((F t).M * (f'.force + ((F t).M.invTwist w).rot * (f t).force))
    rw [Rot.invTwist_eq]
    simp only [Rot.app_add, ec]
    ext <;> simp <;> ring

theorem RBI.hasDeriv_mul (I : RBI) {v : ℝ → Twist} {a : Twist} {t : ℝ} (h : Twist.HasDeriv v a t) :
    Wrench.HasDeriv (fun s => I * v s) (I * a) t := by
  simp only [RBI.mul_twist]
  have hm : ∀ {f : ℝ → Vec} {f' : Vec} (A : Mat3), Vec.HasDeriv f f' t → Vec.HasDeriv (fun s => A * f s) (A * f') t := by
    intro f f' A hf
    exact ⟨((hf.x.const_mul _).add (hf.y.const_mul _)).add (hf.z.const_mul _),
      ((hf.x.const_mul _).add (hf.y.const_mul _)).add (hf.z.const_mul _),
      ((hf.x.const_mul _).add (hf.y.const_mul _)).add (hf.z.const_mul _)⟩
  have hsm : Vec.HasDeriv (fun s => I.m • (v s).vel) (I.m • a.vel) t :=
    (Vec.HasDeriv.smul (hasDerivAt_const _ _) h.vel).congr_deriv (by ext <;> simp)
  have hc1 := (Vec.HasDeriv.const (t := t) I.h).cross h.rot
  have hc2 := (Vec.HasDeriv.const (t := t) I.h).cross h.vel
  refine ⟨(hsm.sub hc1).congr_deriv ?_, ((hm I.I h.rot).add hc2).congr_deriv ?_⟩ <;> ext <;> simp
theorem Frame.invTwist_mul (X F : Frame) (hX : X.IsProper) (g : Twist) :
    (X * F).invTwist g = F.invTwist (X.invTwist g) := by
  have hP : X.M.IsProper := hX
  have h1 : (X * F).M.inv = F.M.inv * X.M.inv := Rot.inv_mul _ _
  have h2 : (X * F).p = X.M * F.p + X.p := rfl
  simp only [Frame.invTwist_eq, h1, h2, Rot.mul_app]
  congr 2
  rw [Rot.app_sub, Rot.app_sub, Vec.add_cross, Rot.app_add]
  rw [← hP.inv.cross, hP.inv_app_app]
  abel

theorem aP_add (q qd qdd : ℕ → ℝ) : ∀ (ss : List Segment) (j : ℕ) (v b g : Twist), (∀ s ∈ ss, s.Valid) →
    aP q qd qdd ss j v (b + g) = aP q qd qdd ss j v b + (fkF q ss j).invTwist g := by
  intro ss
  induction ss with
  | nil =>
    intro j v b g _
    simp only [aP, fkF]
    congr 1
    rw [Frame.invTwist_eq]; ext <;> simp [Rot.inv]
  | cons s ss ih =>
    intro j v b g hv
    have hP := Segment.isProper_pose (hv s (by simp))
    have hap : ap q qd qdd s j v (b + g) = ap q qd qdd s j v b + (Xs q s j).invTwist g := by
      unfold ap; rw [Frame.invTwist_add]; abel
    unfold aP
    rw [hap, ih _ _ _ _ (fun x hx => hv x (by simp [hx]))]
    congr 1
    unfold Xs qv nx
    conv_rhs => unfold fkF
    split_ifs with hm <;> rw [Frame.invTwist_mul _ _ (hP _)]

theorem Frame.app_add_wrench (F : Frame) (a b : Wrench) : F * (a + b) = F * a + F * b := by
  show Wrench.mk (F.M * (a.force + b.force)) (F.M * (a.torque + b.torque) + F.p * (F.M * (a.force + b.force))) =
    Wrench.mk (F.M * a.force + F.M * b.force) (F.M * a.torque + F.p * (F.M * a.force) + (F.M * b.torque + F.p * (F.M * b.force)))
  simp only [Rot.app_add]
  congr 1
  ext <;> simp <;> ring
theorem Frame.app_neg_wrench (F : Frame) (a : Wrench) : F * (-a) = -(F * a) := by
  ext <;> simp <;> ring
theorem Frame.app_sub_wrench (F : Frame) (a b : Wrench) : F * (a - b) = F * a - F * b := by
  rw [sub_eq_add_neg, Frame.app_add_wrench, Frame.app_neg_wrench, ← sub_eq_add_neg]

/-- Gravity seen as an acceleration of the base is the wrench of the weight. -/
theorem grav_wrench (F : Frame) (hF : F.IsProper) (i : RBI) (g : Vec) :
    F * (i * F.invTwist (-⟨g, 0⟩)) = -(⟨i.m • g, (i.m • F.p + F.M * i.h) * g⟩ : Wrench) := by
  have hP : F.M.IsProper := hF
  rw [Frame.invTwist_eq, RBI.mul_twist]
  have e1 : (-(⟨g, 0⟩ : Twist)).vel = -g := rfl
  have e2 : (-(⟨g, 0⟩ : Twist)).rot = 0 := by show -(0 : Vec) = 0; simp
  simp only [e1, e2]
  have z1 : ∀ v : Vec, v * (0 : Vec) = 0 := fun v => by ext <;> simp
  simp only [Rot.app_zero, z1, sub_zero, Mat3.app_zero, zero_add]
  show Wrench.mk (F.M * (i.m • (F.M.inv * -g))) (F.M * (i.h * (F.M.inv * -g)) + F.p * (F.M * (i.m • (F.M.inv * -g)))) = _
  rw [Rot.app_smul, hP.app_inv_app, ← hP.cross, hP.app_inv_app]
  ext <;> simp <;> ring

end KDL
