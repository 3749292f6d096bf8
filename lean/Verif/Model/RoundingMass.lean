import Verif.Model.RoundingRbi

/-!
# The joint space inertia matrix in floating point arithmetic

The arithmetic is that of Model/Rounding.lean.  Products of matrices, left to Eigen, are summed from the left.
Citations are relative to `/repo/orocos_kdl/src`.
-/

noncomputable section
namespace KDL
namespace FlD
variable (F : FlD)

/-- Difference of two matrices. -/
def matSub (a b : Mat3) : Mat3 :=
  ⟨F.rnd (a.a00 - b.a00), F.rnd (a.a01 - b.a01), F.rnd (a.a02 - b.a02), F.rnd (a.a10 - b.a10), F.rnd (a.a11 - b.a11), F.rnd (a.a12 - b.a12),
   F.rnd (a.a20 - b.a20), F.rnd (a.a21 - b.a21), F.rnd (a.a22 - b.a22)⟩

/-- `Identity()*m`, articulatedbodyinertia.cpp:30. -/
def diag (m : ℝ) : Mat3 :=
  ⟨F.rnd (m * 1), F.rnd (m * 0), F.rnd (m * 0), F.rnd (m * 0), F.rnd (m * 1), F.rnd (m * 0), F.rnd (m * 0), F.rnd (m * 0), F.rnd (m * 1)⟩

/-- `ArticulatedBodyInertia(RigidBodyInertia)`, articulatedbodyinertia.cpp:28. -/
def abiOfRBI (i : RBI) : ABI := ⟨F.diag i.m, Mat3.skew i.h, i.I⟩

/-- `operator+(ArticulatedBodyInertia,ArticulatedBodyInertia)`, articulatedbodyinertia.cpp:53. -/
def abiAdd (a b : ABI) : ABI := ⟨F.matAdd a.M b.M, F.matAdd a.H b.H, F.matAdd a.I b.I⟩

/-- `operator*(ArticulatedBodyInertia,Twist)`, articulatedbodyinertia.cpp:68. -/
def abiTwist (i : ABI) (t : Twist) : Wrench :=
  ⟨F.vecAdd (F.matVec i.M t.vel) (F.matVec i.H.tr t.rot), F.vecAdd (F.matVec i.I t.rot) (F.matVec i.H t.vel)⟩

/-- `operator*(Frame,ArticulatedBodyInertia)`, articulatedbodyinertia.cpp:75. -/
def frameAbi (T : Frame) (i : ABI) : ABI :=
  let X := F.frameInv T
  let E := Mat3.mapRot X.M
  let r := Mat3.skew X.p
  let HrM := F.matSub i.H (F.matMul r i.M)
  ⟨F.matMul (F.matMul E i.M) E.tr, F.matMul (F.matMul E HrM) E.tr,
   F.matMul (F.matMul E (F.matAdd (F.matSub i.I (F.matMul r i.H.tr)) (F.matMul HrM r))) E.tr⟩

/-- Forward sweep, chaindynparam.cpp:72–88 (see `massFwd`). -/
def massFwd (q : List ℝ) : List Segment → ℕ → Option (List MLink)
  | [], _ => some []
  | s :: ss, k => do
    let (q_, k') ← (if s.moving then do
        let a ← q[k]?
        some (a, k + 1)
      else some (0, k) : Option (ℝ × ℕ))
    let X := F.segPose s q_
    let rest ← massFwd q ss k'
    some (⟨s, X, F.rotInvTwist X.M (F.segTwist s q_ 1)⟩ :: rest)

/-- Inner loop, chaindynparam.cpp:110–122 (see `massInner`). -/
def massInner (k : ℤ) : Frame → List MLink → ℤ → Wrench → JMat → Option JMat
  | _, [], _, _, H => some H
  | X, p :: ps, j, W, H =>
    let W' := F.frameWrench X W
    if p.seg.moving then do
      let H1 ← H.set k (j - 1) (F.twistDot p.S W')
      let h ← H1.get k (j - 1)
      let H2 ← H1.set (j - 1) k h
      massInner k p.X ps (j - 1) W' H2
    else massInner k p.X ps j W' H

/-- Outer loop, chaindynparam.cpp:92–126 (see `massOuter`). -/
def massOuter : List MLink → ℤ → Option ABI → JMat → Option JMat
  | [], _, _, H => some H
  | l :: ls, k, carry, H =>
    let Ic : ABI := match carry with | none => F.abiOfRBI l.seg.I | some w => F.abiAdd (F.abiOfRBI l.seg.I) w
    let W : Wrench := F.abiTwist Ic l.S
    if l.seg.moving then do
      let H1 ← H.set k k (F.twistDot l.S W)
      let h ← H1.get k k
      let H2 ← H1.set k k (F.rnd (h + l.seg.joint.inertia))
      let H3 ← F.massInner k l.X ls k W H2
      massOuter ls (k - 1) (some (F.frameAbi l.X Ic)) H3
    else massOuter ls k (some (F.frameAbi l.X Ic)) H

/-- `ChainDynParam::JntToMass`, chaindynparam.cpp:61. -/
def jntToMass (c : Chain) (nj ns : ℕ) (q : List ℝ) (H : JMat) : Option (Int × JMat) :=
  if nj ≠ c.nrOfJoints ∨ ns ≠ c.nrOfSegments then some (E_NOT_UP_TO_DATE, H)
  else if q.length ≠ nj ∨ H.n ≠ nj then some (E_SIZE_MISMATCH, H)
  else do
    let ls ← F.massFwd q (c.segments.take ns) 0
    let H' ← F.massOuter ls.reverse ((nj : ℤ) - 1) none H
    some (E_NOERROR, H')

end FlD
end KDL
