import Mathlib.Data.Real.Basic
import Mathlib.Analysis.Real.Sqrt
import Mathlib.Analysis.SpecialFunctions.Trigonometric.Basic
import Mathlib.Analysis.SpecialFunctions.Complex.Arg
import Mathlib.Tactic.Ring
import Mathlib.Tactic.LinearCombination
import Mathlib.Tactic.Module

/-!
# Model of `frames.hpp`, `frames.inl`, `frames.cpp`

All citations are relative to `/repo/orocos_kdl/src`.  `double` is modelled by `ℝ`.
Member functions that modify `*this` return the new value.
-/

noncomputable section

namespace KDL

/-- `KDL::Vector`, frames.hpp:161 (`data[3]`). -/
@[ext] structure Vec where
  x : ℝ
  y : ℝ
  z : ℝ

/-- `KDL::Rotation`, frames.hpp:302 (`data[9]`, row major: `m00 = data[0]`, `m01 = data[1]`, … `m22 = data[8]`),
accessors frames.inl:487–495. -/
@[ext] structure Rot where
  m00 : ℝ
  m01 : ℝ
  m02 : ℝ
  m10 : ℝ
  m11 : ℝ
  m12 : ℝ
  m20 : ℝ
  m21 : ℝ
  m22 : ℝ

/-- `KDL::Frame`, frames.hpp:570 (members `p`, `M`). -/
@[ext] structure Frame where
  M : Rot
  p : Vec

/-- `KDL::Twist`, frames.hpp:720. -/
@[ext] structure Twist where
  vel : Vec
  rot : Vec

/-- `KDL::Wrench`, frames.hpp:881. -/
@[ext] structure Wrench where
  force : Vec
  torque : Vec

/-! ## Vector -/
namespace Vec

/-- `Vector::Zero`, frames.inl:136. -/
instance : Zero Vec := ⟨⟨0, 0, 0⟩⟩
/-- `operator+(Vector,Vector)`, frames.inl:57 (also `operator+=`, 119). -/
instance : Add Vec := ⟨fun a b => ⟨a.x + b.x, a.y + b.y, a.z + b.z⟩⟩
/-- `operator-(Vector,Vector)`, frames.inl:66 (also `operator-=`, 128). -/
instance : Sub Vec := ⟨fun a b => ⟨a.x - b.x, a.y - b.y, a.z - b.z⟩⟩
/-- unary `operator-` and `ReverseSign`, frames.inl:440–457. -/
instance : Neg Vec := ⟨fun a => ⟨-a.x, -a.y, -a.z⟩⟩
/-- `operator*(double,Vector)` and `operator*(Vector,double)`, frames.inl:83–99 (equal by commutativity). -/
instance : SMul ℝ Vec := ⟨fun c a => ⟨c * a.x, c * a.y, c * a.z⟩⟩
/-- `operator/(Vector,double)`, frames.inl:101.  Division by zero (inf/NaN in C++) is excluded by hypotheses
wherever the quotient matters. -/
instance : HDiv Vec ℝ Vec := ⟨fun a c => ⟨a.x / c, a.y / c, a.z / c⟩⟩
/-- Cross product `operator*(Vector,Vector)`, frames.inl:110. -/
instance : Mul Vec :=
  ⟨fun a b => ⟨a.y * b.z - a.z * b.y, a.z * b.x - a.x * b.z, a.x * b.y - a.y * b.x⟩⟩

/-- `dot(Vector,Vector)`, frames.inl:1012. -/
def dot (a b : Vec) : ℝ := b.x * a.x + b.y * a.y + b.z * a.z

end Vec

/-- The library-wide tolerance `KDL::epsilon = 1e-6`, utility.cxx:21 (a mutable global in C++; modelled with its
initial value). -/
def epsilon : ℝ := 1 / 1000000

namespace Vec

/-- `Vector::Norm(eps)`, frames.cpp:117–143.  Note that the `eps` test is made only when `|x|` is the largest. -/
def norm (v : Vec) (eps : ℝ := epsilon) : ℝ :=
  if |v.x| ≥ |v.y| then
    if |v.x| ≥ |v.z| then
      if |v.x| < eps then 0
      else |v.x| * Real.sqrt (1 + (v.y / v.x) ^ 2 + (v.z / v.x) ^ 2)
    else |v.z| * Real.sqrt (1 + (v.x / v.z) ^ 2 + (v.y / v.z) ^ 2)
  else
    if |v.y| > |v.z| then |v.y| * Real.sqrt (1 + (v.x / v.y) ^ 2 + (v.z / v.y) ^ 2)
    else |v.z| * Real.sqrt (1 + (v.x / v.z) ^ 2 + (v.y / v.z) ^ 2)

/-- `Vector::Normalize(eps)`, frames.cpp:148–157: new value of `*this` and the returned length.
It calls `Norm()` with the default tolerance. -/
def normalize (v : Vec) (eps : ℝ := epsilon) : Vec × ℝ :=
  let n := v.norm
  if n < eps then (⟨1, 0, 0⟩, 0) else (v / n, n)

end Vec

/-! ## Rotation -/
namespace Rot

/-- `Rotation::Identity`, frames.inl:552. -/
instance : One Rot := ⟨⟨1, 0, 0, 0, 1, 0, 0, 0, 1⟩⟩

/-- Constructor from the three column vectors, frames.inl:508. -/
def ofCols (x y z : Vec) : Rot := ⟨x.x, y.x, z.x, x.y, y.y, z.y, x.z, y.z, z.z⟩

/-- `operator*(Rotation,Rotation)`, frames.cpp:173. -/
instance : Mul Rot := ⟨fun l r =>
  ⟨l.m00 * r.m00 + l.m01 * r.m10 + l.m02 * r.m20,
   l.m00 * r.m01 + l.m01 * r.m11 + l.m02 * r.m21,
   l.m00 * r.m02 + l.m01 * r.m12 + l.m02 * r.m22,
   l.m10 * r.m00 + l.m11 * r.m10 + l.m12 * r.m20,
   l.m10 * r.m01 + l.m11 * r.m11 + l.m12 * r.m21,
   l.m10 * r.m02 + l.m11 * r.m12 + l.m12 * r.m22,
   l.m20 * r.m00 + l.m21 * r.m10 + l.m22 * r.m20,
   l.m20 * r.m01 + l.m21 * r.m11 + l.m22 * r.m21,
   l.m20 * r.m02 + l.m21 * r.m12 + l.m22 * r.m22⟩⟩

/-- `Rotation::operator*(Vector)`, frames.inl:526. -/
instance : HMul Rot Vec Vec := ⟨fun R v =>
  ⟨R.m00 * v.x + R.m01 * v.y + R.m02 * v.z,
   R.m10 * v.x + R.m11 * v.y + R.m12 * v.z,
   R.m20 * v.x + R.m21 * v.y + R.m22 * v.z⟩⟩

/-- `Rotation::operator*(Twist)`, frames.inl:535. -/
instance : HMul Rot Twist Twist := ⟨fun R t => ⟨R * t.vel, R * t.rot⟩⟩
/-- `Rotation::operator*(Wrench)`, frames.inl:544. -/
instance : HMul Rot Wrench Wrench := ⟨fun R w => ⟨R * w.force, R * w.torque⟩⟩

/-- `Rotation::SetInverse` (three swaps) and `Rotation::Inverse()`, frames.inl:637–659. -/
def inv (R : Rot) : Rot :=
  ⟨R.m00, R.m10, R.m20, R.m01, R.m11, R.m21, R.m02, R.m12, R.m22⟩

/-- `Rotation::Inverse(Vector)`, frames.inl:644. -/
def invVec (R : Rot) (v : Vec) : Vec :=
  ⟨R.m00 * v.x + R.m10 * v.y + R.m20 * v.z,
   R.m01 * v.x + R.m11 * v.y + R.m21 * v.z,
   R.m02 * v.x + R.m12 * v.y + R.m22 * v.z⟩

/-- `Rotation::Inverse(Twist)`, frames.inl:179. -/
def invTwist (R : Rot) (t : Twist) : Twist := ⟨R.invVec t.vel, R.invVec t.rot⟩
/-- `Rotation::Inverse(Wrench)`, frames.inl:174. -/
def invWrench (R : Rot) (w : Wrench) : Wrench := ⟨R.invVec w.force, R.invVec w.torque⟩

/-- `Rotation::UnitX/UnitY/UnitZ`, frames.hpp:514–553: the columns. -/
def unitX (R : Rot) : Vec := ⟨R.m00, R.m10, R.m20⟩
def unitY (R : Rot) : Vec := ⟨R.m01, R.m11, R.m21⟩
def unitZ (R : Rot) : Vec := ⟨R.m02, R.m12, R.m22⟩

/-- `Rotation::RotX`, frames.inl:605. -/
def rotX (a : ℝ) : Rot := ⟨1, 0, 0, 0, Real.cos a, -Real.sin a, 0, Real.sin a, Real.cos a⟩
/-- `Rotation::RotY`, frames.inl:610. -/
def rotY (a : ℝ) : Rot := ⟨Real.cos a, 0, Real.sin a, 0, 1, 0, -Real.sin a, 0, Real.cos a⟩
/-- `Rotation::RotZ`, frames.inl:615. -/
def rotZ (a : ℝ) : Rot := ⟨Real.cos a, -Real.sin a, 0, Real.sin a, Real.cos a, 0, 0, 0, 1⟩

/-- `Rotation::DoRotX`, frames.inl:556–569, in program order: the temporaries `x1 x2 x3` are computed from the old
entries, then column 2 is stored, then column 1. -/
def doRotX (R : Rot) (a : ℝ) : Rot :=
  let cs := Real.cos a
  let sn := Real.sin a
  let x1 := cs * R.m01 + sn * R.m02
  let x2 := cs * R.m11 + sn * R.m12
  let x3 := cs * R.m21 + sn * R.m22
  let R := { R with m02 := -sn * R.m01 + cs * R.m02 }
  let R := { R with m12 := -sn * R.m11 + cs * R.m12 }
  let R := { R with m22 := -sn * R.m21 + cs * R.m22 }
  let R := { R with m01 := x1 }
  let R := { R with m11 := x2 }
  { R with m21 := x3 }

/-- `Rotation::DoRotY`, frames.inl:571–585. -/
def doRotY (R : Rot) (a : ℝ) : Rot :=
  let cs := Real.cos a
  let sn := Real.sin a
  let x1 := cs * R.m00 - sn * R.m02
  let x2 := cs * R.m10 - sn * R.m12
  let x3 := cs * R.m20 - sn * R.m22
  let R := { R with m02 := sn * R.m00 + cs * R.m02 }
  let R := { R with m12 := sn * R.m10 + cs * R.m12 }
  let R := { R with m22 := sn * R.m20 + cs * R.m22 }
  let R := { R with m00 := x1 }
  let R := { R with m10 := x2 }
  { R with m20 := x3 }

/-- `Rotation::DoRotZ`, frames.inl:587–601. -/
def doRotZ (R : Rot) (a : ℝ) : Rot :=
  let cs := Real.cos a
  let sn := Real.sin a
  let x1 := cs * R.m00 + sn * R.m01
  let x2 := cs * R.m10 + sn * R.m11
  let x3 := cs * R.m20 + sn * R.m21
  let R := { R with m01 := -sn * R.m00 + cs * R.m01 }
  let R := { R with m11 := -sn * R.m10 + cs * R.m11 }
  let R := { R with m21 := -sn * R.m20 + cs * R.m21 }
  let R := { R with m00 := x1 }
  let R := { R with m10 := x2 }
  { R with m20 := x3 }

/-- `Rotation::Quaternion(x,y,z,w)`, frames.cpp:190. -/
def quaternion (x y z w : ℝ) : Rot :=
  let x2 := x * x
  let y2 := y * y
  let z2 := z * z
  let w2 := w * w
  ⟨w2 + x2 - y2 - z2, 2 * x * y - 2 * w * z, 2 * x * z + 2 * w * y,
   2 * x * y + 2 * w * z, w2 - x2 + y2 - z2, 2 * y * z - 2 * w * x,
   2 * x * z - 2 * w * y, 2 * y * z + 2 * w * x, w2 - x2 - y2 + z2⟩

/-- A quaternion as returned by `GetQuaternion`. -/
@[ext] structure Quat where
  x : ℝ
  y : ℝ
  z : ℝ
  w : ℝ

/-- `Rotation::GetQuaternion`, frames.cpp:204–235 (local `epsilon = 1E-12`). -/
def getQuaternion (R : Rot) : Quat :=
  let trace := R.m00 + R.m11 + R.m22
  if trace > 1 / 10 ^ 12 then
    let s := 0.5 / Real.sqrt (trace + 1)
    { w := 0.25 / s, x := (R.m21 - R.m12) * s, y := (R.m02 - R.m20) * s, z := (R.m10 - R.m01) * s }
  else if R.m00 > R.m11 ∧ R.m00 > R.m22 then
    let s := 2 * Real.sqrt (1 + R.m00 - R.m11 - R.m22)
    { w := (R.m21 - R.m12) / s, x := 0.25 * s, y := (R.m01 + R.m10) / s, z := (R.m02 + R.m20) / s }
  else if R.m11 > R.m22 then
    let s := 2 * Real.sqrt (1 + R.m11 - R.m00 - R.m22)
    { w := (R.m02 - R.m20) / s, x := (R.m01 + R.m10) / s, y := 0.25 * s, z := (R.m12 + R.m21) / s }
  else
    let s := 2 * Real.sqrt (1 + R.m22 - R.m00 - R.m11)
    { w := (R.m10 - R.m01) / s, x := (R.m02 + R.m20) / s, y := (R.m12 + R.m21) / s, z := 0.25 * s }

/-- `Rotation::RPY(roll,pitch,yaw)`, frames.cpp:237. -/
def rpy (roll pitch yaw : ℝ) : Rot :=
  let ca1 := Real.cos yaw
  let sa1 := Real.sin yaw
  let cb1 := Real.cos pitch
  let sb1 := Real.sin pitch
  let cc1 := Real.cos roll
  let sc1 := Real.sin roll
  ⟨ca1 * cb1, ca1 * sb1 * sc1 - sa1 * cc1, ca1 * sb1 * cc1 + sa1 * sc1,
   sa1 * cb1, sa1 * sb1 * sc1 + ca1 * cc1, sa1 * sb1 * cc1 - ca1 * sc1,
   -sb1, cb1 * sc1, cb1 * cc1⟩

end Rot

/-- C `atan2(y,x)`; on reals this is the argument of `x + i y` in `(-π, π]` (signed zeros are not modelled). -/
def atan2 (y x : ℝ) : ℝ := Complex.arg ⟨x, y⟩

namespace Rot

/-- Result of `GetRPY`. -/
@[ext] structure RPYAngles where
  roll : ℝ
  pitch : ℝ
  yaw : ℝ

/-- `Rotation::GetRPY`, frames.cpp:249–260. -/
def getRPY (R : Rot) : RPYAngles :=
  let pitch := atan2 (-R.m20) (Real.sqrt (R.m00 ^ 2 + R.m10 ^ 2))
  if |pitch| > Real.pi / 2 - 1 / 10 ^ 12 then
    { pitch := pitch, yaw := atan2 (-R.m01) R.m11, roll := 0 }
  else
    { pitch := pitch, roll := atan2 R.m21 R.m22, yaw := atan2 R.m10 R.m00 }

/-- `Rotation::EulerZYX(alfa,beta,gamma)`, frames.hpp:471. -/
def eulerZYX (alfa beta gamma : ℝ) : Rot := rpy gamma beta alfa

/-- `Rotation::EulerZYZ`, frames.cpp:262. -/
def eulerZYZ (alfa beta gamma : ℝ) : Rot :=
  let sa := Real.sin alfa
  let ca := Real.cos alfa
  let sb := Real.sin beta
  let cb := Real.cos beta
  let sg := Real.sin gamma
  let cg := Real.cos gamma
  ⟨ca * cb * cg - sa * sg, -ca * cb * sg - sa * cg, ca * sb,
   sa * cb * cg + ca * sg, -sa * cb * sg + ca * cg, sa * sb,
   -sb * cg, sb * sg, cb⟩

/-- Result of `GetEulerZYZ`. -/
@[ext] structure ZYZAngles where
  alpha : ℝ
  beta : ℝ
  gamma : ℝ

/-- `Rotation::GetEulerZYZ`, frames.cpp:275–291. -/
def getEulerZYZ (R : Rot) : ZYZAngles :=
  if |R.m22| > 1 - 1 / 10 ^ 12 then
    if R.m22 > 0 then { gamma := 0, beta := 0, alpha := atan2 R.m10 R.m00 }
    else { gamma := 0, beta := Real.pi, alpha := atan2 (-R.m10) (-R.m00) }
  else
    { alpha := atan2 R.m12 R.m02
      beta := atan2 (Real.sqrt (R.m20 ^ 2 + R.m21 ^ 2)) R.m22
      gamma := atan2 R.m21 (-R.m20) }

/-- `Rotation::Rot2(rotvec,angle)`, frames.cpp:303–332 (the axis is assumed normalised by the caller). -/
def rot2 (v : Vec) (angle : ℝ) : Rot :=
  let ct := Real.cos angle
  let st := Real.sin angle
  let vt := 1 - ct
  let m_vt_0 := vt * v.x
  let m_vt_1 := vt * v.y
  let m_vt_2 := vt * v.z
  let m_st_0 := v.x * st
  let m_st_1 := v.y * st
  let m_st_2 := v.z * st
  let m_vt_0_1 := m_vt_0 * v.y
  let m_vt_0_2 := m_vt_0 * v.z
  let m_vt_1_2 := m_vt_1 * v.z
  ⟨ct + m_vt_0 * v.x, -m_st_2 + m_vt_0_1, m_st_1 + m_vt_0_2,
   m_st_2 + m_vt_0_1, ct + m_vt_1 * v.y, -m_st_0 + m_vt_1_2,
   -m_st_1 + m_vt_0_2, m_st_0 + m_vt_1_2, ct + m_vt_2 * v.z⟩

/-- `Rotation::Rot(rotaxis,angle)`, frames.cpp:293. -/
def rot (axis : Vec) (angle : ℝ) : Rot := rot2 axis.normalize.1 angle

/-- Free function `Rot(axis_a_b)`, frames.inl:1107–1127 (rotation vector to rotation). -/
def ofRotVec (axis : Vec) : Rot :=
  let r := axis.normalize (1 / 10 ^ 10)
  let v := r.1
  let angle := r.2
  let ct := Real.cos angle
  let st := Real.sin angle
  let vt := 1 - ct
  ⟨ct + vt * v.x * v.x, -v.z * st + vt * v.x * v.y, v.y * st + vt * v.x * v.z,
   v.z * st + vt * v.y * v.x, ct + vt * v.y * v.y, -v.x * st + vt * v.y * v.z,
   -v.y * st + vt * v.z * v.x, v.x * st + vt * v.z * v.y, ct + vt * v.z * v.z⟩

/-- `Rotation::GetRotAngle(axis,eps)`, frames.cpp:358–428: axis and returned angle. -/
def getRotAngle (R : Rot) (eps : ℝ := epsilon) : Vec × ℝ :=
  let eps2 := eps * 10
  if |R.m01 - R.m10| < eps ∧ |R.m02 - R.m20| < eps ∧ |R.m12 - R.m21| < eps then
    if |R.m01 + R.m10| < eps2 ∧ |R.m02 + R.m20| < eps2 ∧ |R.m12 + R.m21| < eps2
        ∧ |R.m00 + R.m11 + R.m22 - 3| < eps2 then
      (⟨0, 0, 1⟩, 0)
    else
      let xx := (R.m00 + 1) / 2
      let yy := (R.m11 + 1) / 2
      let zz := (R.m22 + 1) / 2
      let xy := (R.m01 + R.m10) / 4
      let xz := (R.m02 + R.m20) / 4
      let yz := (R.m12 + R.m21) / 4
      if xx > yy ∧ xx > zz then
        let x := Real.sqrt xx
        (⟨x, xy / x, xz / x⟩, Real.pi)
      else if yy > zz then
        let y := Real.sqrt yy
        (⟨xy / y, y, yz / y⟩, Real.pi)
      else
        let z := Real.sqrt zz
        (⟨xz / z, yz / z, z⟩, Real.pi)
  else
    let f := (R.m00 + R.m11 + R.m22 - 1) / 2
    let axis : Vec := ⟨R.m21 - R.m12, R.m02 - R.m20, R.m10 - R.m01⟩
    let angle := atan2 (axis.norm / 2) f
    (axis.normalize.1, angle)

/-- `Rotation::GetRot()`, frames.cpp:336. -/
def getRot (R : Rot) : Vec :=
  let r := R.getRotAngle
  r.2 • r.1

end Rot

/-! ## Frame -/
namespace Frame

/-- `Frame::Identity`, frames.inl:696. -/
instance : One Frame := ⟨⟨1, 0⟩⟩
/-- `operator*(Frame,Frame)`, frames.inl:406. -/
instance : Mul Frame := ⟨fun l r => ⟨l.M * r.M, l.M * r.p + l.p⟩⟩
/-- `Frame::operator*(Vector)`, frames.inl:412. -/
instance : HMul Frame Vec Vec := ⟨fun F v => F.M * v + F.p⟩
/-- `Frame::operator*(Wrench)`, frames.inl:156. -/
instance : HMul Frame Wrench Wrench := ⟨fun F w =>
  let force := F.M * w.force
  ⟨force, F.M * w.torque + F.p * force⟩⟩
/-- `Frame::operator*(Twist)`, frames.inl:274. -/
instance : HMul Frame Twist Twist := ⟨fun F t =>
  let rot := F.M * t.rot
  ⟨F.M * t.vel + F.p * rot, rot⟩⟩
/-- `Frame::Inverse()`, frames.inl:422. -/
def inv (F : Frame) : Frame := ⟨F.M.inv, -F.M.invVec F.p⟩
/-- `Frame::Inverse(Vector)`, frames.inl:417. -/
def invVec (F : Frame) (v : Vec) : Vec := F.M.invVec (v - F.p)
/-- `Frame::Inverse(Wrench)`, frames.inl:165. -/
def invWrench (F : Frame) (w : Wrench) : Wrench :=
  ⟨F.M.invVec w.force, F.M.invVec (w.torque - F.p * w.force)⟩
/-- `Frame::Inverse(Twist)`, frames.inl:282. -/
def invTwist (F : Frame) (t : Twist) : Twist :=
  ⟨F.M.invVec (t.vel - F.p * t.rot), F.M.invVec t.rot⟩
/-- `Frame(Rotation)`, frames.inl:388. -/
def ofRot (R : Rot) : Frame := ⟨R, 0⟩
/-- `Frame(Vector)`, frames.inl:394. -/
def ofVec (v : Vec) : Frame := ⟨1, v⟩

/-- `Frame::DH_Craig1989`, frames.cpp:53. -/
def dhCraig (a alpha d theta : ℝ) : Frame :=
  let ct := Real.cos theta
  let st := Real.sin theta
  let sa := Real.sin alpha
  let ca := Real.cos alpha
  ⟨⟨ct, -st, 0, st * ca, ct * ca, -sa, st * sa, ct * sa, ca⟩, ⟨a, -sa * d, ca * d⟩⟩

/-- `Frame::DH`, frames.cpp:70. -/
def dh (a alpha d theta : ℝ) : Frame :=
  let ct := Real.cos theta
  let st := Real.sin theta
  let sa := Real.sin alpha
  let ca := Real.cos alpha
  ⟨⟨ct, -st * ca, st * sa, st, ct * ca, -ct * sa, 0, sa, ca⟩, ⟨a * ct, a * st, d⟩⟩

/-- `Frame::operator()(i,j)` and `Frame::Make4x4`, frames.inl:663–693, frames.cpp:39–51: the homogeneous matrix.
Index checks (`FRAMES_CHECKI`) are replaced by the finite index type. -/
def entry (F : Frame) (i j : Fin 4) : ℝ :=
  match i, j with
  | 0, 0 => F.M.m00 | 0, 1 => F.M.m01 | 0, 2 => F.M.m02 | 0, 3 => F.p.x
  | 1, 0 => F.M.m10 | 1, 1 => F.M.m11 | 1, 2 => F.M.m12 | 1, 3 => F.p.y
  | 2, 0 => F.M.m20 | 2, 1 => F.M.m21 | 2, 2 => F.M.m22 | 2, 3 => F.p.z
  | 3, 0 => 0 | 3, 1 => 0 | 3, 2 => 0 | 3, 3 => 1

end Frame

/-! ## Twist and Wrench -/
namespace Twist

/-- `Twist::Zero`, frames.inl:290. -/
instance : Zero Twist := ⟨⟨0, 0⟩⟩
/-- frames.inl:362. -/
instance : Add Twist := ⟨fun a b => ⟨a.vel + b.vel, a.rot + b.rot⟩⟩
/-- frames.inl:367. -/
instance : Sub Twist := ⟨fun a b => ⟨a.vel - b.vel, a.rot - b.rot⟩⟩
/-- frames.inl:373. -/
instance : Neg Twist := ⟨fun a => ⟨-a.vel, -a.rot⟩⟩
/-- frames.inl:346–354. -/
instance : SMul ℝ Twist := ⟨fun c a => ⟨c • a.vel, c • a.rot⟩⟩
/-- frames.inl:356. -/
instance : HDiv Twist ℝ Twist := ⟨fun a c => ⟨a.vel / c, a.rot / c⟩⟩
/-- Spatial cross product `operator*(Twist,Twist)`, frames.inl:379. -/
instance : Mul Twist := ⟨fun a b => ⟨a.rot * b.vel + a.vel * b.rot, a.rot * b.rot⟩⟩
/-- Dual spatial cross product `operator*(Twist,Wrench)`, frames.inl:383. -/
instance : HMul Twist Wrench Wrench :=
  ⟨fun a w => ⟨a.rot * w.force, a.rot * w.torque + a.vel * w.force⟩⟩
/-- `Twist::RefPoint`, frames.inl:302. -/
def refPoint (t : Twist) (v : Vec) : Twist := ⟨t.vel + t.rot * v, t.rot⟩
/-- `dot(Twist,Wrench)` (and `dot(Wrench,Twist)`), frames.inl:1016–1022. -/
def dot (t : Twist) (w : Wrench) : ℝ := Vec.dot t.vel w.force + Vec.dot t.rot w.torque

end Twist

namespace Wrench

/-- `Wrench::Zero`, frames.inl:184. -/
instance : Zero Wrench := ⟨⟨0, 0⟩⟩
/-- frames.inl:257. -/
instance : Add Wrench := ⟨fun a b => ⟨a.force + b.force, a.torque + b.torque⟩⟩
/-- frames.inl:262. -/
instance : Sub Wrench := ⟨fun a b => ⟨a.force - b.force, a.torque - b.torque⟩⟩
/-- frames.inl:268. -/
instance : Neg Wrench := ⟨fun a => ⟨-a.force, -a.torque⟩⟩
/-- frames.inl:241–249. -/
instance : SMul ℝ Wrench := ⟨fun c a => ⟨c • a.force, c • a.torque⟩⟩
/-- frames.inl:251. -/
instance : HDiv Wrench ℝ Wrench := ⟨fun a c => ⟨a.force / c, a.torque / c⟩⟩
/-- `Wrench::RefPoint`, frames.inl:197. -/
def refPoint (w : Wrench) (v : Vec) : Wrench := ⟨w.force, w.torque + w.force * v⟩

end Wrench

namespace Frame

/-- `Frame::Integrate(t_this, samplefrequency)`, frames.inl:624–634. -/
def integrate (F : Frame) (t : Twist) (freq : ℝ) : Frame :=
  let n := t.rot.norm / freq
  if n < epsilon then { F with p := F.p + F.M * (t.vel / freq) }
  else F * (⟨Rot.rot t.rot n, t.vel / freq⟩ : Frame)

end Frame

/-! ## diff / addDelta -/

/-- `diff(Vector,Vector,dt)`, frames.inl:1129. -/
def Vec.diff (a b : Vec) (dt : ℝ) : Vec := (b - a) / dt
/-- `diff(Rotation,Rotation,dt)`, frames.inl:1133. -/
def Rot.diff (a b : Rot) (dt : ℝ) : Vec := a * (a.inv * b).getRot / dt
/-- `diff(Frame,Frame,dt)`, frames.inl:1138. -/
def Frame.diff (a b : Frame) (dt : ℝ) : Twist := ⟨Vec.diff a.p b.p dt, Rot.diff a.M b.M dt⟩
/-- `diff(Twist,Twist,dt)`, frames.inl:1144. -/
def Twist.diff (a b : Twist) (dt : ℝ) : Twist := ⟨Vec.diff a.vel b.vel dt, Vec.diff a.rot b.rot dt⟩
/-- `diff(Wrench,Wrench,dt)`, frames.inl:1148. -/
def Wrench.diff (a b : Wrench) (dt : ℝ) : Wrench :=
  ⟨Vec.diff a.force b.force dt, Vec.diff a.torque b.torque dt⟩
/-- `addDelta(Vector,Vector,dt)`, frames.inl:1156. -/
def Vec.addDelta (a da : Vec) (dt : ℝ) : Vec := a + dt • da
/-- `addDelta(Rotation,Vector,dt)`, frames.inl:1160. -/
def Rot.addDelta (a : Rot) (da : Vec) (dt : ℝ) : Rot := Rot.ofRotVec (dt • da) * a
/-- `addDelta(Frame,Twist,dt)`, frames.inl:1163. -/
def Frame.addDelta (a : Frame) (da : Twist) (dt : ℝ) : Frame :=
  ⟨Rot.addDelta a.M da.rot dt, Vec.addDelta a.p da.vel dt⟩
/-- `addDelta(Twist,Twist,dt)`, frames.inl:1169. -/
def Twist.addDelta (a da : Twist) (dt : ℝ) : Twist :=
  ⟨Vec.addDelta a.vel da.vel dt, Vec.addDelta a.rot da.rot dt⟩
/-- `addDelta(Wrench,Wrench,dt)`, frames.inl:1172. -/
def Wrench.addDelta (a da : Wrench) (dt : ℝ) : Wrench :=
  ⟨Vec.addDelta a.force da.force dt, Vec.addDelta a.torque da.torque dt⟩

/-! ## Equal -/

/-- `Equal(double,double,eps)`, utilities/utility.h:268. -/
def realEqual (a b eps : ℝ) : Prop := eps > a - b ∧ a - b > -eps
/-- `Equal(Vector,Vector,eps)`, frames.inl:1032. -/
def Vec.equal (a b : Vec) (eps : ℝ) : Prop :=
  realEqual a.x b.x eps ∧ realEqual a.y b.y eps ∧ realEqual a.z b.z eps
/-- `Equal(Rotation,Rotation,eps)`, frames.cpp:160. -/
def Rot.equal (a b : Rot) (eps : ℝ) : Prop :=
  realEqual a.m00 b.m00 eps ∧ realEqual a.m01 b.m01 eps ∧ realEqual a.m02 b.m02 eps ∧
  realEqual a.m10 b.m10 eps ∧ realEqual a.m11 b.m11 eps ∧ realEqual a.m12 b.m12 eps ∧
  realEqual a.m20 b.m20 eps ∧ realEqual a.m21 b.m21 eps ∧ realEqual a.m22 b.m22 eps
/-- `Equal(Frame,Frame,eps)`, frames.inl:1039. -/
def Frame.equal (a b : Frame) (eps : ℝ) : Prop := Vec.equal a.p b.p eps ∧ Rot.equal a.M b.M eps
/-- `Equal(Wrench,Wrench,eps)`, frames.inl:1044. -/
def Wrench.equal (a b : Wrench) (eps : ℝ) : Prop :=
  Vec.equal a.force b.force eps ∧ Vec.equal a.torque b.torque eps
/-- `Equal(Twist,Twist,eps)`, frames.inl:1049. -/
def Twist.equal (a b : Twist) (eps : ℝ) : Prop :=
  Vec.equal a.rot b.rot eps ∧ Vec.equal a.vel b.vel eps

/-! ## Two dimensional versions -/

/-- `KDL::Vector2`, frames.hpp:977. -/
@[ext] structure Vec2 where
  x : ℝ
  y : ℝ

namespace Vec2
/-- frames.inl:783. -/
instance : Zero Vec2 := ⟨⟨0, 0⟩⟩
/-- frames.inl:746. -/
instance : Add Vec2 := ⟨fun a b => ⟨a.x + b.x, a.y + b.y⟩⟩
/-- frames.inl:751. -/
instance : Sub Vec2 := ⟨fun a b => ⟨a.x - b.x, a.y - b.y⟩⟩
/-- frames.inl:801–812. -/
instance : Neg Vec2 := ⟨fun a => ⟨-a.x, -a.y⟩⟩
/-- frames.inl:756–764. -/
instance : SMul ℝ Vec2 := ⟨fun c a => ⟨c * a.x, c * a.y⟩⟩
/-- frames.inl:766. -/
instance : HDiv Vec2 ℝ Vec2 := ⟨fun a c => ⟨a.x / c, a.y / c⟩⟩
/-- `Vector2::operator()(int)`, frames.inl:787; index check replaced by `Fin 2`. -/
def get (v : Vec2) (i : Fin 2) : ℝ := if i = 0 then v.x else v.y
/-- `Vector2::Norm`, frames.cpp:87. -/
def norm (v : Vec2) (eps : ℝ := epsilon) : ℝ :=
  if |v.x| < eps ∧ |v.y| < eps then 0
  else if |v.x| > |v.y| then |v.x| * Real.sqrt (1 + (v.y / v.x) ^ 2)
  else |v.y| * Real.sqrt (1 + (v.x / v.y) ^ 2)
/-- `Vector2::Normalize(eps)`, frames.cpp:104–113: new value of `*this` and the returned length. -/
def normalize (v : Vec2) (eps : ℝ := epsilon) : Vec2 × ℝ :=
  let n := v.norm
  if n < eps then (⟨1, 0⟩, 0) else (v / n, n)
/-- `Vector2::Set3DXY/YZ/ZX/Plane`, frames.inl:820–847. -/
def ofXY (v : Vec) : Vec2 := ⟨v.x, v.y⟩
def ofYZ (v : Vec) : Vec2 := ⟨v.y, v.z⟩
def ofZX (v : Vec) : Vec2 := ⟨v.z, v.x⟩
def ofPlane (F : Frame) (v : Vec) : Vec2 := let t := F.invVec v; ⟨t.x, t.y⟩
end Vec2

/-- `Vector::Set2DXY`, frames.inl:458.  The old value of `*this` is an argument because the function mutates it. -/
def Vec.set2DXY (_this : Vec) (v : Vec2) : Vec := ⟨v.x, v.y, 0⟩
/-- `Vector::Set2DYZ`, frames.inl:466. -/
def Vec.set2DYZ (_this : Vec) (v : Vec2) : Vec := ⟨0, v.x, v.y⟩
/-- `Vector::Set2DZX`, frames.inl:475. -/
def Vec.set2DZX (_this : Vec) (v : Vec2) : Vec := ⟨v.y, 0, v.x⟩
/-- `Vector::Set2DPlane`, frames.inl:707–714: the result is computed in the local `tmp_XY` and dropped; `*this` keeps
its old value. -/
def Vec.set2DPlane (this : Vec) (F : Frame) (v : Vec2) : Vec :=
  let tmp : Vec := Vec.set2DXY 0 v
  let _tmp := F * tmp
  this

/-- `KDL::Rotation2`, frames.hpp:1072 (members `c`, `s`). -/
@[ext] structure Rot2D where
  c : ℝ
  s : ℝ

namespace Rot2D
/-- frames.inl:887. -/
instance : One Rot2D := ⟨⟨1, 0⟩⟩
/-- frames.inl:870. -/
instance : Mul Rot2D := ⟨fun l r => ⟨l.c * r.c - l.s * r.s, l.s * r.c + l.c * r.s⟩⟩
/-- `Rotation2::operator*(Vector2)`, frames.inl:856. -/
instance : HMul Rot2D Vec2 Vec2 := ⟨fun R v => ⟨v.x * R.c - v.y * R.s, v.x * R.s + v.y * R.c⟩⟩
/-- `Rotation2::operator()(i,j)`, frames.inl:860. -/
def entry (R : Rot2D) (i j : Fin 2) : ℝ := if i = j then R.c else if i = 0 then R.s else -R.s
/-- `Rotation2::Inverse()`/`SetInverse`, frames.inl:874–880. -/
def inv (R : Rot2D) : Rot2D := ⟨R.c, -R.s⟩
/-- `Rotation2::Inverse(Vector2)`, frames.inl:882. -/
def invVec (R : Rot2D) (v : Vec2) : Vec2 := ⟨v.x * R.c + v.y * R.s, -v.x * R.s + v.y * R.c⟩
/-- `Rotation2::Rot(angle)`/`SetRot`, frames.inl:897–903. -/
def ofAngle (a : ℝ) : Rot2D := ⟨Real.cos a, Real.sin a⟩
/-- `Rotation2::GetRot`, frames.inl:905. -/
def getRot (R : Rot2D) : ℝ := atan2 R.s R.c
end Rot2D

/-- `KDL::Frame2`, frames.hpp:1140. -/
@[ext] structure Frame2D where
  M : Rot2D
  p : Vec2

namespace Frame2D
/-- frames.inl:946. -/
instance : One Frame2D := ⟨⟨1, 0⟩⟩
/-- frames.inl:931. -/
instance : Mul Frame2D := ⟨fun l r => ⟨l.M * r.M, l.M * r.p + l.p⟩⟩
/-- frames.inl:936. -/
instance : HMul Frame2D Vec2 Vec2 := ⟨fun F v => F.M * v + F.p⟩
/-- `Frame2::Inverse(Vector2)`, frames.inl:941. -/
def invVec (F : Frame2D) (v : Vec2) : Vec2 := F.M.invVec (v - F.p)
/-- `Frame2::SetInverse`/`Inverse()`, frames.inl:952–965. -/
def inv (F : Frame2D) : Frame2D :=
  let M := F.M.inv
  ⟨M, -(M * F.p)⟩
/-- `Frame2::operator()(i,j)`, frames.inl:979–1008; index check replaced by `Fin 3`. -/
def entry (F : Frame2D) (i j : Fin 3) : ℝ :=
  if hi : i.val = 2 then (if j.val = 2 then 1 else 0)
  else if hj : j.val = 2 then F.p.get ⟨i.val, by omega⟩
  else F.M.entry ⟨i.val, by omega⟩ ⟨j.val, by omega⟩
end Frame2D

/-! ## Specification vocabulary (no C++ counterpart) -/
namespace Rot
/-- determinant, used to state that a matrix is a proper rotation -/
def det (R : Rot) : ℝ :=
  R.m00 * (R.m11 * R.m22 - R.m12 * R.m21) - R.m01 * (R.m10 * R.m22 - R.m12 * R.m20)
    + R.m02 * (R.m10 * R.m21 - R.m11 * R.m20)

/-- Proper rotation: orthogonal with determinant one. -/
structure IsProper (R : Rot) : Prop where
  orth : R * R.inv = 1
  det : R.det = 1

end Rot

/-- A frame whose rotation part is a proper rotation. -/
def Frame.IsProper (F : Frame) : Prop := F.M.IsProper


end KDL
