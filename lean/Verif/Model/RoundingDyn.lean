import Verif.Model.RoundingJac
import Verif.Model.Dynamics

/-!
# Inverse dynamics in floating point arithmetic

The arithmetic is that of Model/Rounding.lean.  Citations are relative to `/repo/orocos_kdl/src`.
-/

noncomputable section
namespace KDL

/-- The product of a 3×3 matrix and a vector is left to Eigen (rotationalinertia.cpp:46), which may sum in any order: a further
function of the machine. -/
structure FlD extends Fl where
  matVec : Mat3 → Vec → Vec

namespace FlD
variable (F : FlD)

/-- `Rotation::Inverse(Vector)`, frames.inl:644. -/
def rotInvVec (R : Rot) (v : Vec) : Vec :=
  ⟨F.dot3 R.m00 v.x R.m10 v.y R.m20 v.z, F.dot3 R.m01 v.x R.m11 v.y R.m21 v.z, F.dot3 R.m02 v.x R.m12 v.y R.m22 v.z⟩

/-- `Rotation::Inverse(Twist)`, frames.inl:180. -/
def rotInvTwist (R : Rot) (t : Twist) : Twist := ⟨F.rotInvVec R t.vel, F.rotInvVec R t.rot⟩

/-- `Frame::Inverse(Twist)`, frames.inl:282. -/
def frameInvTwist (X : Frame) (t : Twist) : Twist :=
  ⟨F.rotInvVec X.M (F.vecSub t.vel (F.cross X.p t.rot)), F.rotInvVec X.M t.rot⟩

/-- `operator+(Twist,Twist)`, frames.inl:361. -/
def twistAdd (a b : Twist) : Twist := ⟨F.vecAdd a.vel b.vel, F.vecAdd a.rot b.rot⟩

/-- `operator*(Twist,double)`, frames.inl:345. -/
def twistScale (t : Twist) (c : ℝ) : Twist := ⟨F.vecScale t.vel c, F.vecScale t.rot c⟩

/-- `operator*(Twist,Twist)`, frames.inl:379. -/
def twistCross (a b : Twist) : Twist := ⟨F.vecAdd (F.cross a.rot b.vel) (F.cross a.vel b.rot), F.cross a.rot b.rot⟩

/-- `operator*(Twist,Wrench)`, frames.inl:383. -/
def twistWrench (a : Twist) (w : Wrench) : Wrench :=
  ⟨F.cross a.rot w.force, F.vecAdd (F.cross a.rot w.torque) (F.cross a.vel w.force)⟩

/-- `operator+(Wrench,Wrench)`, frames.inl:257. -/
def wrenchAdd (a b : Wrench) : Wrench := ⟨F.vecAdd a.force b.force, F.vecAdd a.torque b.torque⟩

/-- `operator-(Wrench,Wrench)`, frames.inl:262. -/
def wrenchSub (a b : Wrench) : Wrench := ⟨F.vecSub a.force b.force, F.vecSub a.torque b.torque⟩

/-- `operator*(RigidBodyInertia,Twist)`, rigidbodyinertia.cpp:50; `I.m*t.vel` (frames.inl:92) has the factors in the other order. -/
def rbiTwist (i : RBI) (t : Twist) : Wrench :=
  ⟨F.vecSub (F.vecScale t.vel i.m) (F.cross i.h t.rot), F.vecAdd (F.matVec i.I t.rot) (F.cross i.h t.vel)⟩

/-- `Frame::operator*(Wrench)`, frames.inl:156. -/
def frameWrench (X : Frame) (w : Wrench) : Wrench :=
  let force := F.rotVec X.M w.force
  ⟨force, F.vecAdd (F.rotVec X.M w.torque) (F.cross X.p force)⟩

/-- `dot(Vector,Vector)`, frames.inl:1012. -/
def vecDot (a b : Vec) : ℝ := F.dot3 b.x a.x b.y a.y b.z a.z

/-- `dot(Twist,Wrench)`, frames.inl:1016. -/
def twistDot (t : Twist) (w : Wrench) : ℝ := F.rnd (F.vecDot t.vel w.force + F.vecDot t.rot w.torque)

/-- Forward sweep, chainidsolver_recursive_newton_euler.cpp:57–88 (see `rneFwd`). -/
def rneFwd (ag : Twist) (q qd qdd : List ℝ) (fext : List Wrench) :
    List Segment → ℕ → ℕ → Option (Twist × Twist) → Option (List Link)
  | [], _, _, _ => some []
  | s :: ss, i, j, prev => do
    let (q_, qdot_, qdotdot_, j') ← (if s.moving then do
        let a ← q[j]?
        let b ← qd[j]?
        let c ← qdd[j]?
        some (a, b, c, j + 1)
      else some (0, 0, 0, j) : Option (ℝ × ℝ × ℝ × ℕ))
    let X := F.segPose s q_
    let vj := F.rotInvTwist X.M (F.segTwist s q_ qdot_)
    let S := F.rotInvTwist X.M (F.segTwist s q_ 1)
    let (v, a) := (match prev with
      | none => (vj, F.twistAdd (F.twistAdd (F.frameInvTwist X ag) (F.twistScale S qdotdot_)) (F.twistCross vj vj))
      | some (v0, a0) =>
        let v := F.twistAdd (F.frameInvTwist X v0) vj
        (v, F.twistAdd (F.twistAdd (F.frameInvTwist X a0) (F.twistScale S qdotdot_)) (F.twistCross v vj)) : Twist × Twist)
    let fe ← fext[i]?
    let f := F.wrenchSub (F.wrenchAdd (F.rbiTwist s.I a) (F.twistWrench v (F.rbiTwist s.I v))) fe
    let rest ← rneFwd ag q qd qdd fext ss (i + 1) j' (some (v, a))
    some (⟨s, X, S, v, a, f⟩ :: rest)

/-- Backward sweep, chainidsolver_recursive_newton_euler.cpp:90–100 (see `rneBack`). -/
def rneBack (qdd : List ℝ) : List Link → ℤ → Option Wrench → List ℝ → Option (List ℝ)
  | [], _, _, τ => some τ
  | l :: ls, j, carry, τ =>
    let f := match carry with | none => l.f | some w => F.wrenchAdd l.f w
    if l.seg.moving then do
      let qddj ← getJnt qdd j
      let τ' ← setJnt τ j (F.rnd (F.twistDot l.S f + F.rnd (l.seg.joint.inertia * qddj)))
      rneBack qdd ls (j - 1) (some (F.frameWrench l.X f)) τ'
    else rneBack qdd ls j (some (F.frameWrench l.X f)) τ

/-- `ChainIdSolver_RNE::CartToJnt`, chainidsolver_recursive_newton_euler.cpp:44. -/
def idRne (c : Chain) (nj ns : ℕ) (grav : Vec) (q qd qdd : List ℝ) (fext : List Wrench) (τ : List ℝ) :
    Option (Int × List ℝ) :=
  if nj ≠ c.nrOfJoints ∨ ns ≠ c.nrOfSegments then some (E_NOT_UP_TO_DATE, τ)
  else if q.length ≠ nj ∨ qd.length ≠ nj ∨ qdd.length ≠ nj ∨ τ.length ≠ nj ∨ fext.length ≠ ns then
    some (E_SIZE_MISMATCH, τ)
  else do
    let ls ← F.rneFwd (-⟨grav, 0⟩) q qd qdd fext (c.segments.take ns) 0 0 none
    let τ' ← F.rneBack qdd ls.reverse ((nj : ℤ) - 1) none τ
    some (E_NOERROR, τ')

end FlD
end KDL
