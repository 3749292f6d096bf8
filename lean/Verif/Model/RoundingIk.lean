import Verif.Model.RoundingJac
import Verif.Model.IkPos

/-!
# The inverse position solver with joint limits in floating point arithmetic

The arithmetic is that of Model/Rounding.lean, with the square root and the arc tangent of `<cmath>` in addition.  The inverse
velocity solver is a parameter.  Constants of the program are rounded when they are read.  Citations are relative to
`/repo/orocos_kdl/src`.
-/

noncomputable section
namespace KDL

/-- The arithmetic of `Fl` with `sqrt` and `atan2`. -/
structure FlM extends Fl where
  sqrt : ℝ → ℝ
  atan2 : ℝ → ℝ → ℝ

namespace FlM

/-- The standard model; the square root has a relative error of at most `u`, the arc tangent an absolute one of at most `4u` (one unit
in the last place of a number of magnitude at most 4). -/
structure Ok (F : FlM) : Prop where
  fl : F.toFl.Ok
  sqrt : ∀ x, 0 ≤ x → |F.sqrt x - Real.sqrt x| ≤ F.u * Real.sqrt x
  atan2 : ∀ y x, |F.atan2 y x - KDL.atan2 y x| ≤ 4 * F.u

variable (F : FlM)

/-- `KDL::epsilon`, utilities/utility.cxx. -/
def eps0 : ℝ := F.rnd epsilon

/-- `operator/(Vector,double)`, frames.inl:101. -/
def vecDiv (a : Vec) (c : ℝ) : Vec := ⟨F.rnd (a.x / c), F.rnd (a.y / c), F.rnd (a.z / c)⟩

/-- `tmp*sqrt(1+sqr(a/m)+sqr(b/m))`, the expressions of frames.cpp:130–139. -/
def scaled (a b m : ℝ) : ℝ :=
  F.rnd (|m| * F.sqrt (F.rnd (F.rnd (1 + F.rnd (F.rnd (a / m) * F.rnd (a / m))) + F.rnd (F.rnd (b / m) * F.rnd (b / m)))))

/-- `Vector::Norm()`, frames.cpp:117, with the default tolerance. -/
def norm (v : Vec) : ℝ :=
  if |v.x| ≥ |v.y| then
    if |v.x| ≥ |v.z| then
      if |v.x| < F.eps0 then 0 else F.scaled v.y v.z v.x
    else F.scaled v.x v.y v.z
  else
    if |v.y| > |v.z| then F.scaled v.x v.z v.y else F.scaled v.x v.y v.z

/-- `Vector::Normalize()`, frames.cpp:147: new value of `*this`. -/
def normalize (v : Vec) : Vec :=
  let n := F.norm v
  if n < F.eps0 then ⟨1, 0, 0⟩ else F.vecDiv v n

/-- `Rotation::GetRotAngle`, frames.cpp:358, with the default tolerance: axis and angle. -/
def getRotAngle (R : Rot) : Vec × ℝ :=
  let eps2 := F.rnd (F.eps0 * 10)
  if |F.rnd (R.m01 - R.m10)| < F.eps0 ∧ |F.rnd (R.m02 - R.m20)| < F.eps0 ∧ |F.rnd (R.m12 - R.m21)| < F.eps0 then
    if |F.rnd (R.m01 + R.m10)| < eps2 ∧ |F.rnd (R.m02 + R.m20)| < eps2 ∧ |F.rnd (R.m12 + R.m21)| < eps2
        ∧ |F.rnd (F.rnd (F.rnd (R.m00 + R.m11) + R.m22) - 3)| < eps2 then
      (⟨0, 0, 1⟩, 0)
    else
      let xx := F.rnd (F.rnd (R.m00 + 1) / 2)
      let yy := F.rnd (F.rnd (R.m11 + 1) / 2)
      let zz := F.rnd (F.rnd (R.m22 + 1) / 2)
      let xy := F.rnd (F.rnd (R.m01 + R.m10) / 4)
      let xz := F.rnd (F.rnd (R.m02 + R.m20) / 4)
      let yz := F.rnd (F.rnd (R.m12 + R.m21) / 4)
      if xx > yy ∧ xx > zz then
        let x := F.sqrt xx
        (⟨x, F.rnd (xy / x), F.rnd (xz / x)⟩, F.rnd Real.pi)
      else if yy > zz then
        let y := F.sqrt yy
        (⟨F.rnd (xy / y), y, F.rnd (yz / y)⟩, F.rnd Real.pi)
      else
        let z := F.sqrt zz
        (⟨F.rnd (xz / z), F.rnd (yz / z), z⟩, F.rnd Real.pi)
  else
    let f := F.rnd (F.rnd (F.rnd (F.rnd (R.m00 + R.m11) + R.m22) - 1) / 2)
    let axis : Vec := ⟨F.rnd (R.m21 - R.m12), F.rnd (R.m02 - R.m20), F.rnd (R.m10 - R.m01)⟩
    (F.normalize axis, F.atan2 (F.rnd (F.norm axis / 2)) f)

/-- `Rotation::GetRot()`, frames.cpp:336. -/
def getRot (R : Rot) : Vec := F.vecScale (F.getRotAngle R).1 (F.getRotAngle R).2

/-- `diff(Rotation,Rotation,dt)` with `dt = 1`, frames.inl:1133.  `Inverse()` is the transposed matrix. -/
def rotDiff (a b : Rot) : Vec := F.vecDiv (F.rotVec a (F.getRot (F.rotMul a.inv b))) 1

/-- `diff(Frame,Frame,dt)` with `dt = 1`, frames.inl:1138. -/
def diff (a b : Frame) : Twist := ⟨F.vecDiv (F.vecSub b.p a.p) 1, F.rotDiff a.M b.M⟩

/-- `Equal(double,double,eps)`, utilities/utility.h:268. -/
def eq (a b eps : ℝ) : Prop := eps > F.rnd (a - b) ∧ F.rnd (a - b) > -eps

/-- `Equal(Vector,Vector,eps)`, frames.inl:1032. -/
def eqVec (a b : Vec) (eps : ℝ) : Prop := F.eq a.x b.x eps ∧ F.eq a.y b.y eps ∧ F.eq a.z b.z eps

/-- `Equal(Twist,Twist,eps)`, frames.inl:1049. -/
def eqTwist (a b : Twist) (eps : ℝ) : Prop := F.eqVec a.rot b.rot eps ∧ F.eqVec a.vel b.vel eps

/-- `Add(JntArray,JntArray,JntArray)`, jntarray.cpp:80; `none`: sizes differ (Eigen's precondition violated). -/
def jntAdd (a b : List ℝ) : Option (List ℝ) := if a.length = b.length then some (List.zipWith (fun x y => F.rnd (x + y)) a b) else none

open Classical in
/-- Loop of `ChainIkSolverPos_NR_JL::CartToJnt`, chainiksolverpos_nr_jl.cpp:73–100, with the recursive forward solver: remaining
iterations, iteration number, `q_out`. -/
def jlLoop (c : Chain) (ik : VelSolver) (p_in : Frame) (eps : ℝ) (q_min q_max : List ℝ) : ℕ → ℕ → List ℝ → Option (Int × List ℝ)
  | 0, _, q => some (E_MAX_ITERATIONS_EXCEEDED, q)
  | n + 1, i, q => do
    let (code, f) ← F.fkPos c q (-1)
    if code < 0 then some (E_FKSOLVERPOS_FAILED, q)
    else
      let delta_twist := F.diff f p_in
      if F.eqTwist delta_twist 0 eps then some (E_NOERROR, q)
      else do
        let (rc, delta_q) ← ik i q delta_twist
        if rc < 0 then some (E_IKSOLVER_FAILED, q)
        else do
          let q' ← F.jntAdd q delta_q
          jlLoop c ik p_in eps q_min q_max n (i + 1) (NrJlState.clampHigh (NrJlState.clampLow q' q_min) q_max)

/-- `ChainIkSolverPos_NR_JL::CartToJnt`, chainiksolverpos_nr_jl.cpp:62: code and `q_out`.  The members are those of the exact model. -/
def jlCartToJnt (s : NrJlState) (c : Chain) (ik : VelSolver) (q_init : List ℝ) (p_in : Frame) (q_out : List ℝ) : Option (Int × List ℝ) :=
  if s.nj ≠ c.nrOfJoints then some (E_NOT_UP_TO_DATE, q_out)
  else if s.nj ≠ q_init.length ∨ s.nj ≠ q_out.length ∨ s.nj ≠ s.q_min.length ∨ s.nj ≠ s.q_max.length then some (E_SIZE_MISMATCH, q_out)
  else F.jlLoop c ik p_in s.eps s.q_min s.q_max s.maxiter 0 q_init

end FlM
end KDL
