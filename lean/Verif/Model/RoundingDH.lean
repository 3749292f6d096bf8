import Verif.Model.RoundingDyn
import Verif.Model.Robots

/-!
# Construction of segments and of the Puma 560 in floating point arithmetic

The arithmetic is that of Model/Rounding.lean.  A decimal literal is the number it denotes, rounded.  Citations are relative to
`/repo/orocos_kdl/src`.
-/

noncomputable section
namespace KDL
namespace FlD
variable (F : FlD)

/-- `Frame::Inverse()`, frames.inl:422. -/
def frameInv (X : Frame) : Frame := ⟨X.M.inv, -F.rotInvVec X.M X.p⟩

/-- `Frame::DH`, frames.cpp:70. -/
def dh (a alpha d theta : ℝ) : Frame :=
  let ct := F.cos theta
  let st := F.sin theta
  let sa := F.sin alpha
  let ca := F.cos alpha
  ⟨⟨ct, F.rnd (-st * ca), F.rnd (st * sa), st, F.rnd (ct * ca), F.rnd (-ct * sa), 0, sa, ca⟩, ⟨F.rnd (a * ct), F.rnd (a * st), d⟩⟩

/-- `Frame::DH_Craig1989`, frames.cpp:53. -/
def dhCraig (a alpha d theta : ℝ) : Frame :=
  let ct := F.cos theta
  let st := F.sin theta
  let sa := F.sin alpha
  let ca := F.cos alpha
  ⟨⟨ct, -st, 0, F.rnd (st * ca), F.rnd (ct * ca), -sa, F.rnd (st * sa), F.rnd (ct * sa), ca⟩, ⟨a, F.rnd (-sa * d), F.rnd (ca * d)⟩⟩

/-- `Segment(joint,f_tip,I)`, segment.cpp:31. -/
def ofJoint (joint : Joint) (f_tip : Frame) (I : RBI) : Segment :=
  ⟨"NoName", joint, I, F.frameMul (F.frameInv (F.jointPose joint 0)) f_tip⟩

/-- One entry of `Ic - m*(c*c.transpose() - c.dot(c)*Identity)`, rigidbodyinertia.cpp:39; `δ` is the entry of the identity. -/
def cogEntry (m I ci cj dd δ : ℝ) : ℝ := F.rnd (I - F.rnd (m * F.rnd (F.rnd (ci * cj) - F.rnd (dd * δ))))

/-- `RigidBodyInertia(m, c, Ic)`, rigidbodyinertia.cpp:35.  The scalar product is summed from the left. -/
def ofCog (m : ℝ) (c : Vec) (Ic : Mat3) : RBI :=
  let d := F.vecDot c c
  ⟨m, F.vecScale c m,
    ⟨F.cogEntry m Ic.a00 c.x c.x d 1, F.cogEntry m Ic.a01 c.x c.y d 0, F.cogEntry m Ic.a02 c.x c.z d 0,
     F.cogEntry m Ic.a10 c.y c.x d 0, F.cogEntry m Ic.a11 c.y c.y d 1, F.cogEntry m Ic.a12 c.y c.z d 0,
     F.cogEntry m Ic.a20 c.z c.x d 0, F.cogEntry m Ic.a21 c.z c.y d 0, F.cogEntry m Ic.a22 c.z c.z d 1⟩⟩

/-- `RigidBodyInertia::Zero()`, rigidbodyinertia.hpp:48. -/
def zeroI : RBI := F.ofCog 0 0 (rotationalInertia 0 0 0 0 0 0)

/-- `Segment()`, segment.hpp:75. -/
def defaultSegment : Segment := F.ofJoint (.simple .Fixed) 1 F.zeroI

/-- `PI_2`, utilities/utility.cxx:17. -/
def pi2 : ℝ := F.rnd 1.570796326794896619231321691639751442

/-- `Puma560()`, ../models/puma560.cpp:27. -/
def puma560 : Chain :=
  let c := Chain.empty
  let c := c.addSegment F.defaultSegment
  let c := c.addSegment (F.ofJoint (.simple .RotZ) (F.dh 0 F.pi2 0 0)
    (F.ofCog 0 0 (rotationalInertia 0 (F.rnd 0.35) 0 0 0 0)))
  let c := c.addSegment (F.ofJoint (.simple .RotZ) (F.dh (F.rnd 0.4318) 0 0 0)
    (F.ofCog (F.rnd 17.4) ⟨-F.rnd 0.3638, F.rnd 0.006, F.rnd 0.2275⟩ (rotationalInertia (F.rnd 0.13) (F.rnd 0.524) (F.rnd 0.539) 0 0 0)))
  let c := c.addSegment F.defaultSegment
  let c := c.addSegment (F.ofJoint (.simple .RotZ) (F.dh (F.rnd 0.0203) (-F.pi2) (F.rnd 0.15005) 0)
    (F.ofCog (F.rnd 4.8) ⟨-F.rnd 0.0203, -F.rnd 0.0141, F.rnd 0.070⟩ (rotationalInertia (F.rnd 0.066) (F.rnd 0.086) (F.rnd 0.0125) 0 0 0)))
  let c := c.addSegment (F.ofJoint (.simple .RotZ) (F.dh 0 F.pi2 (F.rnd 0.4318) 0)
    (F.ofCog (F.rnd 0.82) ⟨0, F.rnd 0.019, 0⟩ (rotationalInertia (F.rnd 1.8e-3) (F.rnd 1.3e-3) (F.rnd 1.8e-3) 0 0 0)))
  let c := c.addSegment F.defaultSegment
  let c := c.addSegment F.defaultSegment
  let c := c.addSegment (F.ofJoint (.simple .RotZ) (F.dh 0 (-F.pi2) 0 0)
    (F.ofCog (F.rnd 0.34) 0 (rotationalInertia (F.rnd 0.3e-3) (F.rnd 0.4e-3) (F.rnd 0.3e-3) 0 0 0)))
  let c := c.addSegment (F.ofJoint (.simple .RotZ) (F.dh 0 0 0 0)
    (F.ofCog (F.rnd 0.09) ⟨0, 0, F.rnd 0.032⟩ (rotationalInertia (F.rnd 0.15e-3) (F.rnd 0.15e-3) (F.rnd 0.04e-3) 0 0 0)))
  c.addSegment F.defaultSegment

end FlD
end KDL
