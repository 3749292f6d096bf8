import Verif.Model.ChainKin

/-!
# Forward kinematics in floating point arithmetic

Every operation on `double`s is followed by a rounding, an arbitrary function with a bounded relative error (the standard
model of floating point arithmetic: no overflow, no underflow, and no contraction of a product and a sum into one operation).
The sine and the cosine of the C library are arbitrary functions with a bounded absolute error.  Comparisons, copies and
changes of sign are exact.

Citations are relative to `/repo/orocos_kdl/src`.
-/

noncomputable section
namespace KDL

/-- Arithmetic of the machine: unit roundoff, rounding, `sin` and `cos` of `<cmath>`. -/
structure Fl where
  u : ℝ
  rnd : ℝ → ℝ
  sin : ℝ → ℝ
  cos : ℝ → ℝ

namespace Fl
variable (F : Fl)

/-- The standard model: each operation has a relative error of at most `u`; `sin` and `cos` an absolute one of at most
`2u` (one unit in the last place of a number of magnitude at most 1). -/
structure Ok : Prop where
  nonneg : 0 ≤ F.u
  rnd : ∀ x, |F.rnd x - x| ≤ F.u * |x|
  sin : ∀ x, |F.sin x - Real.sin x| ≤ 2 * F.u
  cos : ∀ x, |F.cos x - Real.cos x| ≤ 2 * F.u

/-- `a*x + b*y + c*z`, evaluated from left to right. -/
def dot3 (a x b y c z : ℝ) : ℝ := F.rnd (F.rnd (F.rnd (a * x) + F.rnd (b * y)) + F.rnd (c * z))

/-- `operator*(Rotation,Rotation)`, frames.cpp:173. -/
def rotMul (A B : Rot) : Rot :=
  ⟨F.dot3 A.m00 B.m00 A.m01 B.m10 A.m02 B.m20, F.dot3 A.m00 B.m01 A.m01 B.m11 A.m02 B.m21,
   F.dot3 A.m00 B.m02 A.m01 B.m12 A.m02 B.m22,
   F.dot3 A.m10 B.m00 A.m11 B.m10 A.m12 B.m20, F.dot3 A.m10 B.m01 A.m11 B.m11 A.m12 B.m21,
   F.dot3 A.m10 B.m02 A.m11 B.m12 A.m12 B.m22,
   F.dot3 A.m20 B.m00 A.m21 B.m10 A.m22 B.m20, F.dot3 A.m20 B.m01 A.m21 B.m11 A.m22 B.m21,
   F.dot3 A.m20 B.m02 A.m21 B.m12 A.m22 B.m22⟩

/-- `Rotation::operator*(Vector)`, frames.inl:526. -/
def rotVec (A : Rot) (v : Vec) : Vec :=
  ⟨F.dot3 A.m00 v.x A.m01 v.y A.m02 v.z, F.dot3 A.m10 v.x A.m11 v.y A.m12 v.z, F.dot3 A.m20 v.x A.m21 v.y A.m22 v.z⟩

/-- `operator+(Vector,Vector)`, frames.inl:57. -/
def vecAdd (a b : Vec) : Vec := ⟨F.rnd (a.x + b.x), F.rnd (a.y + b.y), F.rnd (a.z + b.z)⟩

/-- `operator*(Vector,double)`, frames.inl:83. -/
def vecScale (a : Vec) (c : ℝ) : Vec := ⟨F.rnd (a.x * c), F.rnd (a.y * c), F.rnd (a.z * c)⟩

/-- `operator*(Frame,Frame)`, frames.inl:406. -/
def frameMul (a b : Frame) : Frame := ⟨F.rotMul a.M b.M, F.vecAdd (F.rotVec a.M b.p) a.p⟩

/-- `Rotation::Rot2`, frames.cpp:303. -/
def rot2 (v : Vec) (angle : ℝ) : Rot :=
  let ct := F.cos angle
  let st := F.sin angle
  let vt := F.rnd (1 - ct)
  let m_vt_0 := F.rnd (vt * v.x)
  let m_vt_1 := F.rnd (vt * v.y)
  let m_vt_2 := F.rnd (vt * v.z)
  let m_st_0 := F.rnd (v.x * st)
  let m_st_1 := F.rnd (v.y * st)
  let m_st_2 := F.rnd (v.z * st)
  let m_vt_0_1 := F.rnd (m_vt_0 * v.y)
  let m_vt_0_2 := F.rnd (m_vt_0 * v.z)
  let m_vt_1_2 := F.rnd (m_vt_1 * v.z)
  ⟨F.rnd (ct + F.rnd (m_vt_0 * v.x)), F.rnd (-m_st_2 + m_vt_0_1), F.rnd (m_st_1 + m_vt_0_2),
   F.rnd (m_st_2 + m_vt_0_1), F.rnd (ct + F.rnd (m_vt_1 * v.y)), F.rnd (-m_st_0 + m_vt_1_2),
   F.rnd (-m_st_1 + m_vt_0_2), F.rnd (m_st_0 + m_vt_1_2), F.rnd (ct + F.rnd (m_vt_2 * v.z))⟩

/-- `scale*q+offset`, joint.cpp:72–86. -/
def arg (j : Joint) (q : ℝ) : ℝ := F.rnd (F.rnd (j.scale * q) + j.offset)

/-- `Joint::pose`, joint.cpp:68; `RotX`, `RotY`, `RotZ`: frames.inl:605–619. -/
def jointPose (j : Joint) (q : ℝ) : Frame :=
  let a := F.arg j q
  match j.type with
  | .RotAxis => ⟨F.rot2 j.axis a, j.origin⟩
  | .RotX => ⟨⟨1, 0, 0, 0, F.cos a, -F.sin a, 0, F.sin a, F.cos a⟩, ⟨0, 0, 0⟩⟩
  | .RotY => ⟨⟨F.cos a, 0, F.sin a, 0, 1, 0, -F.sin a, 0, F.cos a⟩, ⟨0, 0, 0⟩⟩
  | .RotZ => ⟨⟨F.cos a, -F.sin a, 0, F.sin a, F.cos a, 0, 0, 0, 1⟩, ⟨0, 0, 0⟩⟩
  | .TransAxis => ⟨1, F.vecAdd j.origin (F.vecScale j.axis a)⟩
  | .TransX => ⟨1, ⟨a, 0, 0⟩⟩
  | .TransY => ⟨1, ⟨0, a, 0⟩⟩
  | .TransZ => ⟨1, ⟨0, 0, a⟩⟩
  | .Fixed => 1

/-- `Segment::pose`, segment.cpp:57. -/
def segPose (s : Segment) (q : ℝ) : Frame := F.frameMul (F.jointPose s.joint q) s.f_tip

/-- Loop of chainfksolverpos_recursive.cpp:49–58. -/
def fkLoop (q : List ℝ) : List Segment → ℕ → Frame → Option Frame
  | [], _, p => some p
  | s :: ss, j, p =>
    if s.moving then do
      let qj ← q[j]?
      fkLoop q ss (j + 1) (F.frameMul p (F.segPose s qj))
    else fkLoop q ss j (F.frameMul p (F.segPose s 0))

/-- `ChainFkSolverPos_recursive::JntToCart(q_in, Frame&, seg_nr)`, chainfksolverpos_recursive.cpp:34. -/
def fkPos (c : Chain) (q : List ℝ) (seg_nr : ℤ) : Option (Int × Frame) :=
  let n := segmentNr c seg_nr
  if q.length ≠ c.nrOfJoints then some (E_SIZE_MISMATCH, 1)
  else if n > c.nrOfSegments then some (E_OUT_OF_RANGE, 1)
  else do
    let p ← F.fkLoop q (c.segments.take n) 0 1
    some (E_NOERROR, p)

end Fl
end KDL
