import Verif.Model.Inertia
import Verif.Lemmas.Frames
import Mathlib.Tactic.LinearCombination

/-! Helper lemmas about the inertia classes: matrices are compared through their action on vectors. -/

noncomputable section
namespace KDL

namespace Mat3
theorem app_def (A : Mat3) (v : Vec) : A * v =
  ⟨A.a00 * v.x + A.a01 * v.y + A.a02 * v.z, A.a10 * v.x + A.a11 * v.y + A.a12 * v.z,
   A.a20 * v.x + A.a21 * v.y + A.a22 * v.z⟩ := rfl
@[simp] theorem app_x (A : Mat3) (v : Vec) : (A * v).x = A.a00 * v.x + A.a01 * v.y + A.a02 * v.z := rfl
@[simp] theorem app_y (A : Mat3) (v : Vec) : (A * v).y = A.a10 * v.x + A.a11 * v.y + A.a12 * v.z := rfl
@[simp] theorem app_z (A : Mat3) (v : Vec) : (A * v).z = A.a20 * v.x + A.a21 * v.y + A.a22 * v.z := rfl

theorem ext_app {A B : Mat3} (h : ∀ v : Vec, A * v = B * v) : A = B := by
  have hx := h ⟨1, 0, 0⟩
  have hy := h ⟨0, 1, 0⟩
  have hz := h ⟨0, 0, 1⟩
  simp only [app_def, mul_one, mul_zero, add_zero, zero_add, Vec.mk.injEq] at hx hy hz
  ext
  exacts [hx.1, hy.1, hz.1, hx.2.1, hy.2.1, hz.2.1, hx.2.2, hy.2.2, hz.2.2]

theorem add_def (a b : Mat3) : a + b = ⟨a.a00 + b.a00, a.a01 + b.a01, a.a02 + b.a02, a.a10 + b.a10, a.a11 + b.a11,
  a.a12 + b.a12, a.a20 + b.a20, a.a21 + b.a21, a.a22 + b.a22⟩ := rfl
theorem sub_def (a b : Mat3) : a - b = ⟨a.a00 - b.a00, a.a01 - b.a01, a.a02 - b.a02, a.a10 - b.a10, a.a11 - b.a11,
  a.a12 - b.a12, a.a20 - b.a20, a.a21 - b.a21, a.a22 - b.a22⟩ := rfl
theorem smul_def (c : ℝ) (a : Mat3) : c • a = ⟨c * a.a00, c * a.a01, c * a.a02, c * a.a10, c * a.a11, c * a.a12,
  c * a.a20, c * a.a21, c * a.a22⟩ := rfl
theorem mul_def (a b : Mat3) : a * b =
  ⟨a.a00 * b.a00 + a.a01 * b.a10 + a.a02 * b.a20, a.a00 * b.a01 + a.a01 * b.a11 + a.a02 * b.a21,
   a.a00 * b.a02 + a.a01 * b.a12 + a.a02 * b.a22, a.a10 * b.a00 + a.a11 * b.a10 + a.a12 * b.a20,
   a.a10 * b.a01 + a.a11 * b.a11 + a.a12 * b.a21, a.a10 * b.a02 + a.a11 * b.a12 + a.a12 * b.a22,
   a.a20 * b.a00 + a.a21 * b.a10 + a.a22 * b.a20, a.a20 * b.a01 + a.a21 * b.a11 + a.a22 * b.a21,
   a.a20 * b.a02 + a.a21 * b.a12 + a.a22 * b.a22⟩ := rfl
theorem one_def : (1 : Mat3) = ⟨1, 0, 0, 0, 1, 0, 0, 0, 1⟩ := rfl
theorem zero_def : (0 : Mat3) = ⟨0, 0, 0, 0, 0, 0, 0, 0, 0⟩ := rfl

theorem add_app (A B : Mat3) (v : Vec) : (A + B) * v = A * v + B * v := by
  ext <;> simp [add_def] <;> ring
theorem sub_app (A B : Mat3) (v : Vec) : (A - B) * v = A * v - B * v := by
  ext <;> simp [sub_def] <;> ring
theorem smul_app (c : ℝ) (A : Mat3) (v : Vec) : (c • A) * v = c • (A * v) := by
  ext <;> simp [smul_def] <;> ring
theorem mul_app (A B : Mat3) (v : Vec) : (A * B) * v = A * (B * v) := by
  ext <;> simp [mul_def] <;> ring
theorem one_app (v : Vec) : (1 : Mat3) * v = v := by ext <;> simp [one_def]
theorem zero_app (v : Vec) : (0 : Mat3) * v = 0 := by ext <;> simp [zero_def]
theorem outer_app (a b v : Vec) : outer a b * v = (b.dot v) • a := by
  ext <;> simp [outer, Vec.dot] <;> ring
theorem skew_app (a v : Vec) : skew a * v = a * v := by ext <;> simp [skew] <;> ring
theorem skew_tr_app (a v : Vec) : (skew a).tr * v = v * a := by ext <;> simp [skew, tr] <;> ring
theorem mapRot_app (R : Rot) (v : Vec) : mapRot R * v = R.inv * v := by ext <;> simp [mapRot] <;> ring
theorem mapRot_tr_app (R : Rot) (v : Vec) : (mapRot R).tr * v = R * v := by ext <;> simp [mapRot, tr] <;> ring
theorem app_add (A : Mat3) (u v : Vec) : A * (u + v) = A * u + A * v := by ext <;> simp <;> ring
theorem app_sub (A : Mat3) (u v : Vec) : A * (u - v) = A * u - A * v := by ext <;> simp <;> ring
theorem app_smul (A : Mat3) (c : ℝ) (v : Vec) : A * (c • v) = c • (A * v) := by ext <;> simp <;> ring
theorem app_zero (A : Mat3) : A * (0 : Vec) = 0 := by ext <;> simp
theorem app_neg (A : Mat3) (v : Vec) : A * (-v) = -(A * v) := by ext <;> simp <;> ring
theorem dot_app (A : Mat3) (u v : Vec) : Vec.dot u (A * v) = Vec.dot (A.tr * u) v := by simp [Vec.dot, tr]; ring
theorem tr_tr (A : Mat3) : A.tr.tr = A := rfl
theorem tr_mul (A B : Mat3) : (A * B).tr = B.tr * A.tr := by ext <;> simp [tr, mul_def] <;> ring
theorem tr_sub (A B : Mat3) : (A - B).tr = A.tr - B.tr := rfl
theorem tr_add (A B : Mat3) : (A + B).tr = A.tr + B.tr := rfl
theorem tr_smul (c : ℝ) (A : Mat3) : (c • A).tr = c • A.tr := rfl
theorem mul_assoc (A B C : Mat3) : A * B * C = A * (B * C) := ext_app fun v => by simp only [mul_app]
theorem tr_one : (1 : Mat3).tr = 1 := rfl
end Mat3

theorem Vec.triple (a b c : Vec) : a * (b * c) = (a.dot c) • b - (a.dot b) • c := by
  ext <;> simp [Vec.dot] <;> ring
theorem Vec.dot_comm' (a b : Vec) : a.dot b = b.dot a := by simp [Vec.dot]; ring

theorem Frame.app_twist_eq (T : Frame) (hT : T.IsProper) (t : Twist) : T * t = T.M * (t.refPoint T.inv.p) := by
  change Twist.mk (T.M * t.vel + T.p * (T.M * t.rot)) (T.M * t.rot) =
    Twist.mk (T.M * (t.vel + t.rot * -(T.M.inv * T.p))) (T.M * t.rot)
  congr 1
  rw [Rot.app_add, ← Rot.IsProper.cross hT, Rot.app_neg, Rot.IsProper.app_inv_app hT]
  ext <;> simp <;> ring
theorem Frame.app_wrench_eq (T : Frame) (hT : T.IsProper) (w : Wrench) : T * w = T.M * (w.refPoint T.inv.p) := by
  change Wrench.mk (T.M * w.force) (T.M * w.torque + T.p * (T.M * w.force)) =
    Wrench.mk (T.M * w.force) (T.M * (w.torque + w.force * -(T.M.inv * T.p)))
  congr 1
  rw [Rot.app_add, ← Rot.IsProper.cross hT, Rot.app_neg, Rot.IsProper.app_inv_app hT]
  ext <;> simp <;> ring

namespace RBI
theorem mul_twist (i : RBI) (t : Twist) : i * t = ⟨i.m • t.vel - i.h * t.rot, i.I * t.rot + i.h * t.vel⟩ := rfl
theorem add_def (a b : RBI) : a + b = ⟨a.m + b.m, a.h + b.h, a.I + b.I⟩ := rfl
theorem smul_def (c : ℝ) (a : RBI) : c • a = ⟨c * a.m, c • a.h, c • a.I⟩ := rfl
theorem rot_def (M : Rot) (i : RBI) : M * i = ⟨i.m, M * i.h, (Mat3.mapRot M).tr * (i.I * Mat3.mapRot M)⟩ := rfl
theorem refPoint_I_app (i : RBI) (p v : Vec) : (i.refPoint p).I * v = i.I * v + p * (i.h * v) + (i.h - i.m • p) * (p * v) := by
  simp only [refPoint, Mat3.add_app, Mat3.sub_app, Mat3.smul_app, Mat3.one_app, Mat3.outer_app]
  ext <;> simp [Vec.dot] <;> ring
theorem rot_I_app (M : Rot) (i : RBI) (v : Vec) : (M * i).I * v = M * (i.I * (M.inv * v)) := by
  rw [rot_def]; simp only [Mat3.mul_app, Mat3.mapRot_app, Mat3.mapRot_tr_app]
/-- A frame acts as a change of reference point followed by a rotation. -/
theorem frame_eq (T : Frame) (i : RBI) : T * i = T.M * (i.refPoint T.inv.p) := by
  refine RBI.ext rfl rfl (Mat3.ext_app fun v => ?_)
  rw [rot_I_app]
  change (Mat3.mapRot T.M.inv * ((i.refPoint T.inv.p).I * (Mat3.mapRot T.M.inv).tr)) * v = _
  simp only [Mat3.mul_app, Mat3.mapRot_app, Mat3.mapRot_tr_app]
  rfl
theorem ext_app {a b : RBI} (h : ∀ t : Twist, a * t = b * t) : a = b := by
  have hf : ∀ t : Twist, (a * t).force = (b * t).force := fun t => by rw [h]
  have ht : ∀ t : Twist, (a * t).torque = (b * t).torque := fun t => by rw [h]
  simp only [mul_twist] at hf ht
  refine RBI.ext ?_ ?_ ?_
  · have := congrArg Vec.x (hf ⟨⟨1, 0, 0⟩, 0⟩); simpa using this
  · have h1 := ht ⟨⟨1, 0, 0⟩, 0⟩
    have h2 := ht ⟨⟨0, 1, 0⟩, 0⟩
    have a1 := congrArg Vec.y h1
    have a2 := congrArg Vec.z h1
    have a3 := congrArg Vec.z h2
    simp at a1 a2 a3
    ext
    exacts [a3, a2, a1]
  · refine Mat3.ext_app fun v => ?_
    have := ht ⟨0, v⟩
    have e : ∀ w : Vec, w * (0 : Vec) = 0 := fun w => by ext <;> simp
    simpa [e] using this
end RBI
end KDL
