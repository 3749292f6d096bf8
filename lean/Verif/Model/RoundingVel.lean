import Verif.Model.RoundingJac

/-!
# Velocity kinematics in floating point arithmetic

The arithmetic is that of Model/Rounding.lean.  Citations are relative to `/repo/orocos_kdl/src`.
-/

noncomputable section
namespace KDL
namespace Fl
variable (F : Fl)

/-- `operator*(RotationVel,RotationVel)`, framevel.inl:129. -/
def rotVelMul (a b : RotVel) : RotVel := ⟨F.rotMul a.R b.R, F.vecAdd a.w (F.rotVec a.R b.w)⟩

/-- `RotationVel::operator*(VectorVel)`, framevel.inl:189. -/
def rotVelApp (a : RotVel) (x : VecVel) : VecVel :=
  let tmp := F.rotVec a.R x.p
  ⟨tmp, F.vecAdd (F.cross a.w tmp) (F.rotVec a.R x.v)⟩

/-- `operator+(VectorVel,VectorVel)`, framevel.inl:245. -/
def vecVelAdd (a b : VecVel) : VecVel := ⟨F.vecAdd a.p b.p, F.vecAdd a.v b.v⟩

/-- `operator*(FrameVel,FrameVel)`, framevel.inl:33. -/
def frameVelMul (a b : FrameVel) : FrameVel := ⟨F.rotVelMul a.M b.M, F.vecVelAdd (F.rotVelApp a.M b.p) a.p⟩

/-- Loop of chainfksolvervel_recursive.cpp:53–63; the constructor `FrameVel(Frame, Twist)` (framevel.hpp:226) only copies. -/
def fkVelLoop (q qd : List ℝ) : List Segment → ℕ → FrameVel → Option FrameVel
  | [], _, p => some p
  | s :: ss, j, p =>
    if s.moving then do
      let qj ← q[j]?
      let qdj ← qd[j]?
      fkVelLoop q qd ss (j + 1) (F.frameVelMul p (.ofTwist (F.segPose s qj) (F.segTwist s qj qdj)))
    else fkVelLoop q qd ss j (F.frameVelMul p (.ofTwist (F.segPose s 0) (F.segTwist s 0 0)))

/-- `ChainFkSolverVel_recursive::JntToCart(in, FrameVel&, seg_nr)`, chainfksolvervel_recursive.cpp:37. -/
def fkVel (c : Chain) (q qd : List ℝ) (seg_nr : ℤ) : Option (Int × FrameVel) :=
  let n := segmentNr c seg_nr
  if ¬ (q.length = c.nrOfJoints ∧ qd.length = c.nrOfJoints) then some (E_SIZE_MISMATCH, .ofFrame 1)
  else if n > c.nrOfSegments then some (E_OUT_OF_RANGE, .ofFrame 1)
  else do
    let p ← F.fkVelLoop q qd (c.segments.take n) 0 (.ofFrame 1)
    some (E_NOERROR, p)

end Fl
end KDL
