import Verif.Model.Chain
import Verif.Lemmas.Frames
import Verif.Lemmas.Rotations
import Verif.Lemmas.Calculus

/-! Helpers about joints, segments and chains. -/

namespace KDL

theorem Joint.isProper_pose {j : Joint} (h : j.Valid) (q : ℝ) : (j.pose q).IsProper := by
  unfold Joint.pose Frame.IsProper
  cases ht : j.type <;> simp only [Frame.ofRot, Frame.ofVec]
  · exact Rot.isProper_rot2 _ (h (.inl ht)) _
  · exact Rot.isProper_rotX _
  · exact Rot.isProper_rotY _
  · exact Rot.isProper_rotZ _
  all_goals exact Rot.IsProper.one

theorem Segment.isProper_pose {s : Segment} (h : s.Valid) (q : ℝ) : (s.pose q).IsProper :=
  Frame.IsProper.mul (Joint.isProper_pose h.1 q) h.2

theorem Joint.hasTwist {j : Joint} (h : j.Valid) {q : ℝ → ℝ} {q' τ : ℝ} (hq : HasDerivAt q q' τ) :
    Frame.HasTwist (fun s => j.pose (q s)) (j.twist q') τ := by
  have ha : HasDerivAt (fun s => j.scale * q s + j.offset) (j.scale * q') τ :=
    (hq.const_mul j.scale).add_const j.offset
  have c0 : HasDerivAt (fun _ : ℝ => (0 : ℝ)) 0 τ := hasDerivAt_const _ _
  cases ht : j.type <;> simp only [Joint.pose, Joint.twist, ht, Frame.ofRot, Frame.ofVec]
  · exact ⟨Vec.HasDeriv.const _, Rot.HasAngVel.rot2 _ (h (.inl ht)) ha⟩
  · refine ⟨Vec.HasDeriv.const _, ?_⟩
    simp only [Rot.rotX_eq]
    exact (Rot.HasAngVel.rot2 ⟨1, 0, 0⟩ (by simp [Vec.dot]) ha).congr_vel (by ext <;> simp)
  · refine ⟨Vec.HasDeriv.const _, ?_⟩
    simp only [Rot.rotY_eq]
    exact (Rot.HasAngVel.rot2 ⟨0, 1, 0⟩ (by simp [Vec.dot]) ha).congr_vel (by ext <;> simp)
  · refine ⟨Vec.HasDeriv.const _, ?_⟩
    simp only [Rot.rotZ_eq]
    exact (Rot.HasAngVel.rot2 ⟨0, 0, 1⟩ (by simp [Vec.dot]) ha).congr_vel (by ext <;> simp)
  · refine ⟨?_, Rot.HasAngVel.const _⟩
    exact ((Vec.HasDeriv.const j.origin).add (Vec.HasDeriv.smul ha (Vec.HasDeriv.const j.axis))).congr_deriv (by simp)
  · exact ⟨⟨ha, c0, c0⟩, Rot.HasAngVel.const _⟩
  · exact ⟨⟨c0, ha, c0⟩, Rot.HasAngVel.const _⟩
  · exact ⟨⟨c0, c0, ha⟩, Rot.HasAngVel.const _⟩
  · exact ⟨Vec.HasDeriv.const _, Rot.HasAngVel.const _⟩

theorem Segment.hasTwist {s : Segment} (h : s.joint.Valid) {q : ℝ → ℝ} {q' τ : ℝ} (hq : HasDerivAt q q' τ) :
    Frame.HasTwist (fun r => s.pose (q r)) (s.twist (q τ) q') τ := by
  have hj := Joint.hasTwist h hq
  refine ⟨?_, ?_⟩
  · have h1 := Rot.HasAngVel.app hj.rot (Vec.HasDeriv.const s.f_tip.p)
    exact (h1.add hj.vel).congr_deriv (by simp [Segment.twist, add_comm])
  · have h1 := Rot.HasAngVel.mul hj.rot (Rot.HasAngVel.const s.f_tip.M) (Joint.isProper_pose h _)
    exact h1.congr_vel (by simp [Segment.twist])

theorem Joint.twist_smul (j : Joint) (c x : ℝ) : j.twist (c * x) = c • j.twist x := by
  cases ht : j.type <;> ext <;> simp [Joint.twist, ht] <;> ring

theorem Segment.twist_eq_smul (s : Segment) (q x : ℝ) : s.twist q x = x • s.twist q 1 := by
  have h := Joint.twist_smul s.joint x 1
  rw [mul_one] at h
  simp only [Segment.twist, h]
  ext <;> simp <;> ring

theorem Segment.twist_zero (s : Segment) (q : ℝ) : s.twist q 0 = 0 := by
  rw [Segment.twist_eq_smul]; ext <;> simp

@[simp] theorem nMoving_nil : nMoving [] = 0 := rfl
theorem nMoving_cons (s : Segment) (l : List Segment) :
    nMoving (s :: l) = (if s.moving then nMoving l + 1 else nMoving l) := by
  unfold nMoving; rw [List.countP_cons]; split <;> simp_all
theorem nMoving_append (l m : List Segment) : nMoving (l ++ m) = nMoving l + nMoving m := by
  unfold nMoving; exact List.countP_append
theorem nMoving_take_le (l : List Segment) (n : ℕ) : nMoving (l.take n) ≤ nMoving l := by
  unfold nMoving; exact List.Sublist.countP_le (List.take_sublist _ _)

end KDL
