import Verif.Model.Rounding

/-!
# The Jacobian in floating point arithmetic

The arithmetic is that of Model/Rounding.lean.  Citations are relative to `/repo/orocos_kdl/src`.
-/

noncomputable section
namespace KDL
namespace Fl
variable (F : Fl)

/-- `operator-(Vector,Vector)`, frames.inl:66. -/
def vecSub (a b : Vec) : Vec := ⟨F.rnd (a.x - b.x), F.rnd (a.y - b.y), F.rnd (a.z - b.z)⟩

/-- `operator*(Vector,Vector)` (cross product), frames.inl:110. -/
def cross (a b : Vec) : Vec :=
  ⟨F.rnd (F.rnd (a.y * b.z) - F.rnd (a.z * b.y)), F.rnd (F.rnd (a.z * b.x) - F.rnd (a.x * b.z)),
   F.rnd (F.rnd (a.x * b.y) - F.rnd (a.y * b.x))⟩

/-- `Twist::RefPoint`, frames.inl:302. -/
def refPoint (t : Twist) (v : Vec) : Twist := ⟨F.vecAdd t.vel (F.cross t.rot v), t.rot⟩

/-- `Rotation::operator*(Twist)`, frames.inl:535. -/
def rotTwist (R : Rot) (t : Twist) : Twist := ⟨F.rotVec R t.vel, F.rotVec R t.rot⟩

/-- `Joint::twist`, joint.cpp:93. -/
def jointTwist (j : Joint) (qdot : ℝ) : Twist :=
  let a := F.rnd (j.scale * qdot)
  match j.type with
  | .RotAxis => ⟨⟨0, 0, 0⟩, F.vecScale j.axis a⟩
  | .RotX => ⟨⟨0, 0, 0⟩, ⟨a, 0, 0⟩⟩
  | .RotY => ⟨⟨0, 0, 0⟩, ⟨0, a, 0⟩⟩
  | .RotZ => ⟨⟨0, 0, 0⟩, ⟨0, 0, a⟩⟩
  | .TransAxis => ⟨F.vecScale j.axis a, ⟨0, 0, 0⟩⟩
  | .TransX => ⟨⟨a, 0, 0⟩, ⟨0, 0, 0⟩⟩
  | .TransY => ⟨⟨0, a, 0⟩, ⟨0, 0, 0⟩⟩
  | .TransZ => ⟨⟨0, 0, a⟩, ⟨0, 0, 0⟩⟩
  | .Fixed => 0

/-- `Segment::twist`, segment.cpp:62. -/
def segTwist (s : Segment) (q qdot : ℝ) : Twist :=
  F.refPoint (F.jointTwist s.joint qdot) (F.rotVec (F.jointPose s.joint q).M s.f_tip.p)

/-- `changeRefPoint`, jacobian.cpp:84. -/
def changeRefPoint (J : Jac) (v : Vec) : Jac := J.map fun t => F.refPoint t v

/-- Loop of chainjnttojacsolver.cpp:71–96. -/
def jacLoop (q : List ℝ) (locked : List Bool) : List Segment → ℕ → ℕ → Frame → Jac → Option (Frame × Jac)
  | [], _, _, T, J => some (T, J)
  | s :: ss, j, k, T, J =>
    if s.moving then do
      let qj ← q[j]?
      let lk ← locked[j]?
      let total := F.frameMul T (F.segPose s qj)
      let J1 := F.changeRefPoint J (F.vecSub total.p T.p)
      if lk then jacLoop q locked ss (j + 1) k total J1
      else do
        let J2 ← J1.setColumn k (F.rotTwist T.M (F.segTwist s qj 1))
        jacLoop q locked ss (j + 1) (k + 1) total J2
    else
      let total := F.frameMul T (F.segPose s 0)
      jacLoop q locked ss j k total (F.changeRefPoint J (F.vecSub total.p T.p))

/-- `ChainJntToJacSolver::JntToJac`, chainjnttojacsolver.cpp:48. -/
def jntToJac (c : Chain) (locked : List Bool) (q : List ℝ) (jac : Jac) (seg_nr : ℤ) : Option (Int × Jac) :=
  if locked.length ≠ c.nrOfJoints then some (E_NOT_UP_TO_DATE, jac)
  else
    let n := segmentNr c seg_nr
    let J0 := jac.setToZero
    if q.length ≠ c.nrOfJoints ∨ jac.length ≠ c.nrOfJoints then some (E_SIZE_MISMATCH, J0)
    else if n > c.nrOfSegments then some (E_OUT_OF_RANGE, J0)
    else do
      let r ← F.jacLoop q locked (c.segments.take n) 0 0 1 J0
      some (E_NOERROR, r.2)

end Fl
end KDL
