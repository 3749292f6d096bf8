import Verif.Model.Frames

/-!
# Model of `rotationalinertia.cpp`, `rigidbodyinertia.cpp`, `articulatedbodyinertia.cpp`

All citations are relative to `/repo/orocos_kdl/src`.
-/

noncomputable section

namespace KDL

/-- `Eigen::Matrix3d` (external library; only the arithmetic used by the inertia classes). -/
@[ext] structure Mat3 where
  a00 : ℝ
  a01 : ℝ
  a02 : ℝ
  a10 : ℝ
  a11 : ℝ
  a12 : ℝ
  a20 : ℝ
  a21 : ℝ
  a22 : ℝ

namespace Mat3
instance : Zero Mat3 := ⟨⟨0, 0, 0, 0, 0, 0, 0, 0, 0⟩⟩
instance : One Mat3 := ⟨⟨1, 0, 0, 0, 1, 0, 0, 0, 1⟩⟩
instance : Add Mat3 := ⟨fun a b => ⟨a.a00 + b.a00, a.a01 + b.a01, a.a02 + b.a02, a.a10 + b.a10, a.a11 + b.a11,
  a.a12 + b.a12, a.a20 + b.a20, a.a21 + b.a21, a.a22 + b.a22⟩⟩
instance : Sub Mat3 := ⟨fun a b => ⟨a.a00 - b.a00, a.a01 - b.a01, a.a02 - b.a02, a.a10 - b.a10, a.a11 - b.a11,
  a.a12 - b.a12, a.a20 - b.a20, a.a21 - b.a21, a.a22 - b.a22⟩⟩
instance : SMul ℝ Mat3 := ⟨fun c a => ⟨c * a.a00, c * a.a01, c * a.a02, c * a.a10, c * a.a11, c * a.a12,
  c * a.a20, c * a.a21, c * a.a22⟩⟩
instance : Mul Mat3 := ⟨fun a b =>
  ⟨a.a00 * b.a00 + a.a01 * b.a10 + a.a02 * b.a20, a.a00 * b.a01 + a.a01 * b.a11 + a.a02 * b.a21,
   a.a00 * b.a02 + a.a01 * b.a12 + a.a02 * b.a22, a.a10 * b.a00 + a.a11 * b.a10 + a.a12 * b.a20,
   a.a10 * b.a01 + a.a11 * b.a11 + a.a12 * b.a21, a.a10 * b.a02 + a.a11 * b.a12 + a.a12 * b.a22,
   a.a20 * b.a00 + a.a21 * b.a10 + a.a22 * b.a20, a.a20 * b.a01 + a.a21 * b.a11 + a.a22 * b.a21,
   a.a20 * b.a02 + a.a21 * b.a12 + a.a22 * b.a22⟩⟩
/-- Matrix times column vector. -/
instance : HMul Mat3 Vec Vec := ⟨fun a v =>
  ⟨a.a00 * v.x + a.a01 * v.y + a.a02 * v.z, a.a10 * v.x + a.a11 * v.y + a.a12 * v.z,
   a.a20 * v.x + a.a21 * v.y + a.a22 * v.z⟩⟩
/-- `transpose()`. -/
def tr (a : Mat3) : Mat3 := ⟨a.a00, a.a10, a.a20, a.a01, a.a11, a.a21, a.a02, a.a12, a.a22⟩
/-- `u * v.transpose()`. -/
def outer (u v : Vec) : Mat3 :=
  ⟨u.x * v.x, u.x * v.y, u.x * v.z, u.y * v.x, u.y * v.y, u.y * v.z, u.z * v.x, u.z * v.y, u.z * v.z⟩
/-- The cross product matrix written element by element at articulatedbodyinertia.cpp:32, :82, :100. -/
def skew (v : Vec) : Mat3 := ⟨0, -v.z, v.y, v.z, 0, -v.x, -v.y, v.x, 0⟩
/-- `Eigen::Map<Eigen::Matrix3d>(R.data)`: Eigen matrices are column major, `Rotation::data` is row major, so the mapped
matrix is the transpose of the rotation (rigidbodyinertia.cpp:65, :76, articulatedbodyinertia.cpp:80, :91). -/
def mapRot (R : Rot) : Mat3 := ⟨R.m00, R.m10, R.m20, R.m01, R.m11, R.m21, R.m02, R.m12, R.m22⟩
end Mat3

/-- `RotationalInertia(Ixx,Iyy,Izz,Ixy,Ixz,Iyz)`, rotationalinertia.cpp:28.  A `RotationalInertia` is stored as nine
numbers and always read through a column-major map (rotationalinertia.cpp:46–58), hence modelled by `Mat3`:
`data[0] = a00`, `data[1] = a10`, `data[3] = a01`, …. -/
def rotationalInertia (Ixx Iyy Izz Ixy Ixz Iyz : ℝ) : Mat3 := ⟨Ixx, Ixy, Ixz, Ixy, Iyy, Iyz, Ixz, Iyz, Izz⟩

/-- `KDL::RigidBodyInertia`, rigidbodyinertia.hpp:36 (members `m`, `h`, `I`). -/
@[ext] structure RBI where
  m : ℝ
  h : Vec
  I : Mat3

namespace RBI
/-- `RigidBodyInertia(m, c, Ic)`, rigidbodyinertia.cpp:35. -/
def ofCog (m : ℝ) (c : Vec) (Ic : Mat3) : RBI :=
  ⟨m, m • c, Ic - m • (Mat3.outer c c - (Vec.dot c c) • (1 : Mat3))⟩
/-- `RigidBodyInertia::Zero()`, rigidbodyinertia.hpp:48. -/
def zero : RBI := ofCog 0 0 (rotationalInertia 0 0 0 0 0 0)
/-- rigidbodyinertia.cpp:42. -/
instance : SMul ℝ RBI := ⟨fun a i => ⟨a * i.m, a • i.h, a • i.I⟩⟩
/-- rigidbodyinertia.cpp:46. -/
instance : Add RBI := ⟨fun a b => ⟨a.m + b.m, a.h + b.h, a.I + b.I⟩⟩
/-- rigidbodyinertia.cpp:50. -/
instance : HMul RBI Twist Wrench := ⟨fun i t => ⟨i.m • t.vel - i.h * t.rot, i.I * t.rot + i.h * t.vel⟩⟩
/-- `rcrosshcross + hmrcrossrcross`, rigidbodyinertia.cpp:63–64, :91–92. -/
def shift (r h hmr : Vec) : Mat3 :=
  (Mat3.outer h r - (Vec.dot r h) • (1 : Mat3)) + (Mat3.outer r hmr - (Vec.dot hmr r) • (1 : Mat3))
/-- `Frame * RigidBodyInertia`, rigidbodyinertia.cpp:54. -/
instance : HMul Frame RBI RBI := ⟨fun T i =>
  let X := T.inv
  let hmr := i.h - i.m • X.p
  let R := Mat3.mapRot X.M
  ⟨i.m, T.M * hmr, R * ((i.I + (Mat3.outer i.h X.p - (Vec.dot X.p i.h) • (1 : Mat3))
    + (Mat3.outer X.p hmr - (Vec.dot hmr X.p) • (1 : Mat3))) * R.tr)⟩⟩
/-- `Rotation * RigidBodyInertia`, rigidbodyinertia.cpp:72. -/
instance : HMul Rot RBI RBI := ⟨fun M i =>
  let R := Mat3.mapRot M
  ⟨i.m, M * i.h, R.tr * (i.I * R)⟩⟩
/-- `RigidBodyInertia::RefPoint`, rigidbodyinertia.cpp:83. -/
def refPoint (i : RBI) (p : Vec) : RBI :=
  let hmr := i.h - i.m • p
  ⟨i.m, hmr, i.I + (Mat3.outer i.h p - (Vec.dot p i.h) • (1 : Mat3))
    + (Mat3.outer p hmr - (Vec.dot hmr p) • (1 : Mat3))⟩
/-- `getCOG`, rigidbodyinertia.hpp:83. -/
def getCOG (i : RBI) : Vec := open Classical in if i.m = 0 then 0 else i.h / i.m
end RBI

/-- `KDL::ArticulatedBodyInertia`, articulatedbodyinertia.hpp:40 (members `M`, `H`, `I`). -/
@[ext] structure ABI where
  M : Mat3
  H : Mat3
  I : Mat3

namespace ABI
/-- articulatedbodyinertia.cpp:28. -/
def ofRBI (i : RBI) : ABI := ⟨i.m • (1 : Mat3), Mat3.skew i.h, i.I⟩
/-- articulatedbodyinertia.cpp:37. -/
def ofCog (m : ℝ) (c : Vec) (Ic : Mat3) : ABI := ofRBI (RBI.ofCog m c Ic)
/-- articulatedbodyinertia.cpp:49. -/
instance : SMul ℝ ABI := ⟨fun a i => ⟨a • i.M, a • i.H, a • i.I⟩⟩
/-- articulatedbodyinertia.cpp:53 (the overload taking a `RigidBodyInertia` on the left, :57, converts first). -/
instance : Add ABI := ⟨fun a b => ⟨a.M + b.M, a.H + b.H, a.I + b.I⟩⟩
/-- articulatedbodyinertia.cpp:60 (and :64). -/
instance : Sub ABI := ⟨fun a b => ⟨a.M - b.M, a.H - b.H, a.I - b.I⟩⟩
/-- articulatedbodyinertia.cpp:68. -/
instance : HMul ABI Twist Wrench := ⟨fun i t => ⟨i.M * t.vel + i.H.tr * t.rot, i.I * t.rot + i.H * t.vel⟩⟩
/-- articulatedbodyinertia.cpp:75. -/
instance : HMul Frame ABI ABI := ⟨fun T i =>
  let X := T.inv
  let E := Mat3.mapRot X.M
  let r := Mat3.skew X.p
  let HrM := i.H - r * i.M
  ⟨E * i.M * E.tr, E * HrM * E.tr, E * (i.I - r * i.H.tr + HrM * r) * E.tr⟩⟩
/-- articulatedbodyinertia.cpp:90. -/
instance : HMul Rot ABI ABI := ⟨fun M i =>
  let E := Mat3.mapRot M
  ⟨E.tr * i.M * E, E.tr * i.H * E, E.tr * i.I * E⟩⟩
/-- `ArticulatedBodyInertia::RefPoint`, articulatedbodyinertia.cpp:95. -/
def refPoint (i : ABI) (p : Vec) : ABI :=
  let r := Mat3.skew p
  let HrM := i.H - r * i.M
  ⟨i.M, HrM, i.I - r * i.H.tr + HrM * r⟩
end ABI

end KDL
