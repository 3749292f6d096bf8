import Verif.Model.Frames

/-!
# The columns of a rotation as variables, and the program `examples/geometry.cpp`

Decimal literals are the decimal numbers they denote; `PI` and `PI_4` are `π` and `π/4`.
-/

noncomputable section
namespace KDL

namespace Rot
/-- `GetEulerZYX(alfa,beta,gamma)`, frames.hpp:495: `GetRPY(gamma,beta,alfa)`; the triple `(alfa, beta, gamma)`. -/
def getEulerZYX (R : Rot) : ℝ × ℝ × ℝ := (R.getRPY.yaw, R.getRPY.pitch, R.getRPY.roll)
/-- `UnitX(const Vector&)`, frames.hpp:517. -/
def setUnitX (R : Rot) (X : Vec) : Rot := { R with m00 := X.x, m10 := X.y, m20 := X.z }
/-- `UnitY(const Vector&)`, frames.hpp:529. -/
def setUnitY (R : Rot) (X : Vec) : Rot := { R with m01 := X.x, m11 := X.y, m21 := X.z }
/-- `UnitZ(const Vector&)`, frames.hpp:541. -/
def setUnitZ (R : Rot) (X : Vec) : Rot := { R with m02 := X.x, m12 := X.y, m22 := X.z }
end Rot

namespace Geometry

/-- What the part about vectors prints, geometry.cpp:14–70, in this order (the numbers printed twice are left out). -/
structure Vectors where
  fresh : List Vec
  assigned : List Vec
  scaled : List Vec
  sums : List Vec
  v3minus : Vec
  v2plus : Vec
  cross : Vec
  dotp : ℝ
  negated : Vec
  reversed : Vec
  eq : Prop
  ne : Prop
  equal : Prop
  norm : ℝ
  normalized : Vec
  cleared : Vec

/-- geometry.cpp:7–70.  `==` is `Equal` with the tolerance `epsilon`, frames.inl:1288, kdl-config.h:33. -/
def vectors : Vectors :=
  let v1 : Vec := 0
  let v2 : Vec := ⟨1, 2, 3⟩
  let v3 : Vec := v2
  let v4 : Vec := 0
  let fresh := [v1, v2, v3, v4]
  let v1 : Vec := { v1 with x := 4 }
  let v1 : Vec := { v1 with y := 5 }
  let v1 : Vec := { v1 with z := 6 }
  let v2 : Vec := { v2 with x := 7 }
  let v2 : Vec := { v2 with y := 8 }
  let v2 : Vec := { v2 with z := 9 }
  let v3 : Vec := { v3 with x := 10 }
  let v3 : Vec := { v3 with y := 11 }
  let v3 : Vec := { v3 with z := 12 }
  let assigned := [v1, v2, v3]
  let scaled := [((2 : ℝ) • v2 : Vec), (2 : ℝ) • v1, v1 / (2 : ℝ)]
  let sums := [v1 + v2, v3 - v1]
  let v3 : Vec := v3 - v1
  let v2 : Vec := v2 + v1
  let cross : Vec := v1 * v2
  let dotp := Vec.dot v1 v2
  let v1 : Vec := -v2
  let negated := v1
  let v1 : Vec := -v1
  let eq := Vec.equal v1 v2 epsilon
  let n := v3.normalize
  ⟨fresh, assigned, scaled, sums, v3, v2, cross, dotp, negated, v1, eq, ¬ eq, Vec.equal v1 v2 (1 / 10 ^ 6), v3.norm, n.1, 0⟩

/-- The variables `r1` to `r12`, geometry.cpp:75–107. -/
structure Rotations where
  r1 : Rot
  r2 : Rot
  r3 : Rot
  r4 : Rot
  r5 : Rot
  r6 : Rot
  r7 : Rot
  r8 : Rot
  r9 : Rot
  r10 : Rot
  r11 : Rot
  r12 : Rot

/-- geometry.cpp:75–107; the default constructor gives the identity, frames.hpp:309. -/
def rotations : Rotations where
  r1 := 1
  r2 := Rot.ofCols ⟨0, 0, 1⟩ ⟨0, -1, 0⟩ ⟨-1, 0, 0⟩
  r3 := ⟨0, 0, -1, 1, 0, 0, 0, -1, 0⟩
  r4 := 1
  r5 := Rot.rotX (Real.pi / 3)
  r6 := Rot.rotY (Real.pi / 3)
  r7 := Rot.rotZ (Real.pi / 3)
  r8 := Rot.rot ⟨1, 2, 3⟩ (Real.pi / 4)
  r9 := Rot.rot2 ⟨0.4472, 0.5477, 0.7071⟩ (Real.pi / 4)
  r10 := Rot.eulerZYZ 1 2 3
  r11 := Rot.eulerZYX 1 2 3
  r12 := Rot.rpy 1 2 3

/-- What geometry.cpp:123–149 prints about the rotations `r`. -/
structure Facts where
  r8_12 : ℝ
  vec11 : Vec
  axis10 : Vec
  angle10 : ℝ
  zyz9 : Rot.ZYZAngles
  zyx9 : ℝ × ℝ × ℝ
  rpy9 : Rot.RPYAngles
  unitX : Vec
  unitY : Vec
  unitZ : Vec

/-- geometry.cpp:123–149.  The calls `r8.UnitX(v1)` choose the overload that stores the vector. -/
def facts (r : Rotations) : Facts :=
  let a := r.r10.getRotAngle
  let v1 : Vec := a.1
  let r8 := r.r8.setUnitX v1
  let x := r8.unitX
  let r8 := r8.setUnitY v1
  let y := r8.unitY
  let r8 := r8.setUnitZ v1
  let z := r8.unitZ
  ⟨r.r8.m12, r.r11.getRot, v1, a.2, r.r9.getEulerZYZ, r.r9.getEulerZYX, r.r9.getRPY, x, y, z⟩

/-- `r8` at the end of the program. -/
def r8End (r : Rotations) : Rot :=
  let v1 : Vec := r.r10.getRotAngle.1
  ((r.r8.setUnitX v1).setUnitY v1).setUnitZ v1

end Geometry
end KDL
