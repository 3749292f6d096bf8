import Verif.Model.Rounding

/-!
# Rotation matrices from angles and quaternions in floating point arithmetic

The arithmetic is that of Model/Rounding.lean; products and sums are taken from the left, as written.  Citations are relative to
`/repo/orocos_kdl/src`.
-/

noncomputable section
namespace KDL
namespace Fl
variable (F : Fl)

/-- `Rotation::RPY(roll,pitch,yaw)`, frames.cpp:237. -/
def rpy (roll pitch yaw : ℝ) : Rot :=
  let ca1 := F.cos yaw
  let sa1 := F.sin yaw
  let cb1 := F.cos pitch
  let sb1 := F.sin pitch
  let cc1 := F.cos roll
  let sc1 := F.sin roll
  ⟨F.rnd (ca1 * cb1), F.rnd (F.rnd (F.rnd (ca1 * sb1) * sc1) - F.rnd (sa1 * cc1)), F.rnd (F.rnd (F.rnd (ca1 * sb1) * cc1) + F.rnd (sa1 * sc1)),
   F.rnd (sa1 * cb1), F.rnd (F.rnd (F.rnd (sa1 * sb1) * sc1) + F.rnd (ca1 * cc1)), F.rnd (F.rnd (F.rnd (sa1 * sb1) * cc1) - F.rnd (ca1 * sc1)),
   -sb1, F.rnd (cb1 * sc1), F.rnd (cb1 * cc1)⟩

/-- `Rotation::EulerZYX(alfa,beta,gamma)`, frames.hpp:471. -/
def eulerZYX (alfa beta gamma : ℝ) : Rot := F.rpy gamma beta alfa

/-- `Rotation::EulerZYZ`, frames.cpp:262. -/
def eulerZYZ (alfa beta gamma : ℝ) : Rot :=
  let sa := F.sin alfa
  let ca := F.cos alfa
  let sb := F.sin beta
  let cb := F.cos beta
  let sg := F.sin gamma
  let cg := F.cos gamma
  ⟨F.rnd (F.rnd (F.rnd (ca * cb) * cg) - F.rnd (sa * sg)), F.rnd (F.rnd (F.rnd (-ca * cb) * sg) - F.rnd (sa * cg)), F.rnd (ca * sb),
   F.rnd (F.rnd (F.rnd (sa * cb) * cg) + F.rnd (ca * sg)), F.rnd (F.rnd (F.rnd (-sa * cb) * sg) + F.rnd (ca * cg)), F.rnd (sa * sb),
   F.rnd (-sb * cg), F.rnd (sb * sg), cb⟩

/-- `2*a*b` in the matrix of a quaternion. -/
def twice (a b : ℝ) : ℝ := F.rnd (F.rnd (2 * a) * b)

/-- `Rotation::Quaternion(x,y,z,w)`, frames.cpp:190. -/
def quaternion (x y z w : ℝ) : Rot :=
  let x2 := F.rnd (x * x)
  let y2 := F.rnd (y * y)
  let z2 := F.rnd (z * z)
  let w2 := F.rnd (w * w)
  ⟨F.rnd (F.rnd (F.rnd (w2 + x2) - y2) - z2), F.rnd (F.twice x y - F.twice w z), F.rnd (F.twice x z + F.twice w y),
   F.rnd (F.twice x y + F.twice w z), F.rnd (F.rnd (F.rnd (w2 - x2) + y2) - z2), F.rnd (F.twice y z - F.twice w x),
   F.rnd (F.twice x z - F.twice w y), F.rnd (F.twice y z + F.twice w x), F.rnd (F.rnd (F.rnd (w2 - x2) - y2) + z2)⟩

/-- `a*x + b*y` -/
def comb (a x b y : ℝ) : ℝ := F.rnd (F.rnd (a * x) + F.rnd (b * y))

/-- `Rotation::DoRotX`, frames.inl:556. -/
def doRotX (R : Rot) (a : ℝ) : Rot :=
  let cs := F.cos a
  let sn := F.sin a
  let x1 := F.comb cs R.m01 sn R.m02
  let x2 := F.comb cs R.m11 sn R.m12
  let x3 := F.comb cs R.m21 sn R.m22
  let R := { R with m02 := F.comb (-sn) R.m01 cs R.m02 }
  let R := { R with m12 := F.comb (-sn) R.m11 cs R.m12 }
  let R := { R with m22 := F.comb (-sn) R.m21 cs R.m22 }
  let R := { R with m01 := x1 }
  let R := { R with m11 := x2 }
  { R with m21 := x3 }

/-- `Rotation::DoRotY`, frames.inl:572. -/
def doRotY (R : Rot) (a : ℝ) : Rot :=
  let cs := F.cos a
  let sn := F.sin a
  let x1 := F.rnd (F.rnd (cs * R.m00) - F.rnd (sn * R.m02))
  let x2 := F.rnd (F.rnd (cs * R.m10) - F.rnd (sn * R.m12))
  let x3 := F.rnd (F.rnd (cs * R.m20) - F.rnd (sn * R.m22))
  let R := { R with m02 := F.comb sn R.m00 cs R.m02 }
  let R := { R with m12 := F.comb sn R.m10 cs R.m12 }
  let R := { R with m22 := F.comb sn R.m20 cs R.m22 }
  let R := { R with m00 := x1 }
  let R := { R with m10 := x2 }
  { R with m20 := x3 }

/-- `Rotation::DoRotZ`, frames.inl:588. -/
def doRotZ (R : Rot) (a : ℝ) : Rot :=
  let cs := F.cos a
  let sn := F.sin a
  let x1 := F.comb cs R.m00 sn R.m01
  let x2 := F.comb cs R.m10 sn R.m11
  let x3 := F.comb cs R.m20 sn R.m21
  let R := { R with m01 := F.comb (-sn) R.m00 cs R.m01 }
  let R := { R with m11 := F.comb (-sn) R.m10 cs R.m11 }
  let R := { R with m21 := F.comb (-sn) R.m20 cs R.m21 }
  let R := { R with m00 := x1 }
  let R := { R with m10 := x2 }
  { R with m20 := x3 }

end Fl
end KDL
