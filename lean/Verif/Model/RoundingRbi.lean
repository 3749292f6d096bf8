import Verif.Model.RoundingDH

/-!
# Moving the inertia of a rigid body in floating point arithmetic

The arithmetic is that of Model/Rounding.lean.  Products of matrices and scalar products, left to Eigen, are summed from the left.
Citations are relative to `/repo/orocos_kdl/src`.
-/

noncomputable section
namespace KDL
namespace FlD
variable (F : FlD)

/-- Product of two matrices. -/
def matMul (a b : Mat3) : Mat3 :=
  ⟨F.dot3 a.a00 b.a00 a.a01 b.a10 a.a02 b.a20, F.dot3 a.a00 b.a01 a.a01 b.a11 a.a02 b.a21, F.dot3 a.a00 b.a02 a.a01 b.a12 a.a02 b.a22,
   F.dot3 a.a10 b.a00 a.a11 b.a10 a.a12 b.a20, F.dot3 a.a10 b.a01 a.a11 b.a11 a.a12 b.a21, F.dot3 a.a10 b.a02 a.a11 b.a12 a.a12 b.a22,
   F.dot3 a.a20 b.a00 a.a21 b.a10 a.a22 b.a20, F.dot3 a.a20 b.a01 a.a21 b.a11 a.a22 b.a21, F.dot3 a.a20 b.a02 a.a21 b.a12 a.a22 b.a22⟩

/-- Sum of two matrices. -/
def matAdd (a b : Mat3) : Mat3 :=
  ⟨F.rnd (a.a00 + b.a00), F.rnd (a.a01 + b.a01), F.rnd (a.a02 + b.a02), F.rnd (a.a10 + b.a10), F.rnd (a.a11 + b.a11), F.rnd (a.a12 + b.a12),
   F.rnd (a.a20 + b.a20), F.rnd (a.a21 + b.a21), F.rnd (a.a22 + b.a22)⟩

/-- `u*v.transpose() - d*Identity`, rigidbodyinertia.cpp:63, :64, :91, :92; `δ` is the entry of the identity. -/
def outEntry (a b d δ : ℝ) : ℝ := F.rnd (F.rnd (a * b) - F.rnd (d * δ))
def outSub (u v : Vec) (d : ℝ) : Mat3 :=
  ⟨F.outEntry u.x v.x d 1, F.outEntry u.x v.y d 0, F.outEntry u.x v.z d 0, F.outEntry u.y v.x d 0, F.outEntry u.y v.y d 1, F.outEntry u.y v.z d 0,
   F.outEntry u.z v.x d 0, F.outEntry u.z v.y d 0, F.outEntry u.z v.z d 1⟩

/-- `RigidBodyInertia::RefPoint`, rigidbodyinertia.cpp:83. -/
def refPoint (i : RBI) (p : Vec) : RBI :=
  let hmr := F.vecSub i.h (F.vecScale p i.m)
  ⟨i.m, hmr, F.matAdd (F.matAdd i.I (F.outSub i.h p (F.vecDot p i.h))) (F.outSub p hmr (F.vecDot hmr p))⟩

/-- `Frame * RigidBodyInertia`, rigidbodyinertia.cpp:54. -/
def frameRbi (T : Frame) (i : RBI) : RBI :=
  let X := F.frameInv T
  let hmr := F.vecSub i.h (F.vecScale X.p i.m)
  let R := Mat3.mapRot X.M
  ⟨i.m, F.rotVec T.M hmr, F.matMul R (F.matMul
    (F.matAdd (F.matAdd i.I (F.outSub i.h X.p (F.vecDot X.p i.h))) (F.outSub X.p hmr (F.vecDot hmr X.p))) R.tr)⟩

/-- `Rotation * RigidBodyInertia`, rigidbodyinertia.cpp:72. -/
def rotRbi (M : Rot) (i : RBI) : RBI :=
  let R := Mat3.mapRot M
  ⟨i.m, F.rotVec M i.h, F.matMul R.tr (F.matMul i.I R)⟩

end FlD
end KDL
