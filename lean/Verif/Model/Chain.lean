import Verif.Model.Inertia

/-!
# Model of `joint.cpp`, `segment.cpp`, `chain.cpp`, `jntarray.cpp`, `jacobian.cpp`

All citations are relative to `/repo/orocos_kdl/src`.
-/

noncomputable section

namespace KDL

/-- `Joint::JointType`, joint.hpp:47. -/
inductive JointType
  | RotAxis | RotX | RotY | RotZ | TransAxis | TransX | TransY | TransZ | Fixed
  deriving DecidableEq

/-- `KDL::Joint`, joint.hpp:44, members joint.hpp:262–272.  The deprecated cache members are not modelled (never read). -/
@[ext] structure Joint where
  name : String
  type : JointType
  scale : ℝ
  offset : ℝ
  inertia : ℝ
  damping : ℝ
  stiffness : ℝ
  axis : Vec
  origin : Vec

/-- Outcome of a `Joint` constructor: the object, the exception `joint_type_ex`, or an object whose axis was divided by
a zero norm (NaN components). -/
inductive CtorResult (α : Type)
  | ok (a : α)
  | jointTypeEx
  | nan

namespace Joint
/-- `Joint(name, type, scale, offset, inertia, damping, stiffness)`, joint.cpp:27 (and :36 with name "NoName").
`axis` and `origin` are default constructed, i.e. zero. -/
def mk' (name : String) (type : JointType) (scale offset inertia damping stiffness : ℝ) : CtorResult Joint :=
  if type = .RotAxis ∨ type = .TransAxis then .jointTypeEx
  else .ok ⟨name, type, scale, offset, inertia, damping, stiffness, 0, 0⟩
/-- `Joint(name, origin, axis, type, …)`, joint.cpp:45 (and :55).  The axis is divided by its (thresholded) norm. -/
def mkAxis (name : String) (origin axis : Vec) (type : JointType) (scale offset inertia damping stiffness : ℝ) :
    CtorResult Joint :=
  open Classical in
  if type ≠ .RotAxis ∧ type ≠ .TransAxis then .jointTypeEx
  else if axis.norm = 0 then .nan
  else .ok ⟨name, type, scale, offset, inertia, damping, stiffness, axis / axis.norm, origin⟩
/-- `Joint::pose`, joint.cpp:68. -/
def pose (j : Joint) (q : ℝ) : Frame :=
  match j.type with
  | .RotAxis => ⟨Rot.rot2 j.axis (j.scale * q + j.offset), j.origin⟩
  | .RotX => Frame.ofRot (Rot.rotX (j.scale * q + j.offset))
  | .RotY => Frame.ofRot (Rot.rotY (j.scale * q + j.offset))
  | .RotZ => Frame.ofRot (Rot.rotZ (j.scale * q + j.offset))
  | .TransAxis => Frame.ofVec (j.origin + (j.scale * q + j.offset) • j.axis)
  | .TransX => Frame.ofVec ⟨j.scale * q + j.offset, 0, 0⟩
  | .TransY => Frame.ofVec ⟨0, j.scale * q + j.offset, 0⟩
  | .TransZ => Frame.ofVec ⟨0, 0, j.scale * q + j.offset⟩
  | .Fixed => 1
/-- `Joint::twist`, joint.cpp:93. -/
def twist (j : Joint) (qdot : ℝ) : Twist :=
  match j.type with
  | .RotAxis => ⟨⟨0, 0, 0⟩, (j.scale * qdot) • j.axis⟩
  | .RotX => ⟨⟨0, 0, 0⟩, ⟨j.scale * qdot, 0, 0⟩⟩
  | .RotY => ⟨⟨0, 0, 0⟩, ⟨0, j.scale * qdot, 0⟩⟩
  | .RotZ => ⟨⟨0, 0, 0⟩, ⟨0, 0, j.scale * qdot⟩⟩
  | .TransAxis => ⟨(j.scale * qdot) • j.axis, ⟨0, 0, 0⟩⟩
  | .TransX => ⟨⟨j.scale * qdot, 0, 0⟩, ⟨0, 0, 0⟩⟩
  | .TransY => ⟨⟨0, j.scale * qdot, 0⟩, ⟨0, 0, 0⟩⟩
  | .TransZ => ⟨⟨0, 0, j.scale * qdot⟩, ⟨0, 0, 0⟩⟩
  | .Fixed => 0
/-- `Joint::JointAxis`, joint.cpp:118. -/
def jointAxis (j : Joint) : Vec :=
  match j.type with
  | .RotAxis => j.axis
  | .RotX => ⟨1, 0, 0⟩
  | .RotY => ⟨0, 1, 0⟩
  | .RotZ => ⟨0, 0, 1⟩
  | .TransAxis => j.axis
  | .TransX => ⟨1, 0, 0⟩
  | .TransY => ⟨0, 1, 0⟩
  | .TransZ => ⟨0, 0, 1⟩
  | .Fixed => 0
/-- `Joint::JointOrigin`, joint.cpp:144. -/
def jointOrigin (j : Joint) : Vec := j.origin

/-- What every successfully constructed joint satisfies (see C22): the axis of an arbitrary-axis joint is a unit vector. -/
def Valid (j : Joint) : Prop := j.type = .RotAxis ∨ j.type = .TransAxis → j.axis.dot j.axis = 1
/-- Whether the joint contributes a coordinate (`getType() != Joint::Fixed`). -/
def moving (j : Joint) : Bool := decide (j.type ≠ .Fixed)
end Joint

/-- `KDL::Segment`, segment.hpp:46. -/
@[ext] structure Segment where
  name : String
  joint : Joint
  I : RBI
  f_tip : Frame

namespace Segment
/-- `Segment(name, joint, f_tip, I)`, segment.cpp:24 (and :31). -/
def mk' (name : String) (joint : Joint) (f_tip : Frame) (I : RBI) : Segment :=
  ⟨name, joint, I, (joint.pose 0).inv * f_tip⟩
/-- `Segment::pose`, segment.cpp:57. -/
def pose (s : Segment) (q : ℝ) : Frame := s.joint.pose q * s.f_tip
/-- `Segment::twist`, segment.cpp:62. -/
def twist (s : Segment) (q qdot : ℝ) : Twist := (s.joint.twist qdot).refPoint ((s.joint.pose q).M * s.f_tip.p)
/-- `Segment::setFrameToTip`, segment.cpp:67. -/
def setFrameToTip (s : Segment) (f : Frame) : Segment := { s with f_tip := (s.joint.pose 0).inv * f }
/-- `Segment::getFrameToTip`, segment.hpp:149. -/
def getFrameToTip (s : Segment) : Frame := s.joint.pose 0 * s.f_tip
/-- Well-formed segment: valid joint and a proper tip frame. -/
def Valid (s : Segment) : Prop := s.joint.Valid ∧ s.f_tip.IsProper
/-- `getJoint().getType() != Joint::Fixed`. -/
def moving (s : Segment) : Bool := s.joint.moving
end Segment

/-- `KDL::Chain`, chain.hpp (members `nrOfJoints`, `nrOfSegments`, `segments`). -/
@[ext] structure Chain where
  nrOfJoints : ℕ
  nrOfSegments : ℕ
  segments : List Segment

/-- Number of segments in a list whose joint is not fixed. -/
def nMoving (l : List Segment) : ℕ := l.countP Segment.moving

namespace Chain
/-- `Chain()`, chain.cpp:26. -/
def empty : Chain := ⟨0, 0, []⟩
/-- `Chain::addSegment`, chain.cpp:53. -/
def addSegment (c : Chain) (s : Segment) : Chain :=
  ⟨if s.moving then c.nrOfJoints + 1 else c.nrOfJoints, c.nrOfSegments + 1, c.segments ++ [s]⟩
/-- `Chain::getSegment`, chain.cpp:67: unchecked `segments[nr]`; `none` = undefined behaviour. -/
def getSegment (c : Chain) (i : ℕ) : Option Segment := c.segments[i]?
/-- The loop `for(i=i0; i<n; i++) addSegment(src.getSegment(i))` of chain.cpp:38–39, :47–48, :63–64 when `src` is a
different object from `*this`. -/
def addFrom (c src : Chain) : ℕ → ℕ → Option Chain
  | _, 0 => some c
  | i, n + 1 => do
    let s ← src.getSegment i
    addFrom (c.addSegment s) src (i + 1) n
/-- Copy constructor, chain.cpp:33. -/
def copy (src : Chain) : Option Chain := addFrom empty src 0 src.nrOfSegments
/-- `operator=` with an argument that is a different object, chain.cpp:42. -/
def assign (_this src : Chain) : Option Chain := addFrom empty src 0 src.nrOfSegments
/-- `operator=` with `&arg == this`, chain.cpp:42: the loop bound is read after it was reset to zero. -/
def assignSelf (c : Chain) : Option Chain :=
  let c' : Chain := ⟨0, 0, c.segments.take 0⟩
  addFrom c' c' 0 c'.nrOfSegments
/-- `addChain` with an argument that is a different object, chain.cpp:61. -/
def addChain (c src : Chain) : Option Chain := addFrom c src 0 src.nrOfSegments
/-- One iteration of `addChain(*this)`, chain.cpp:63–64: loop condition `i < chain.getNrOfSegments()` is re-evaluated on
the growing object.  `none` = loop exit. -/
def addChainSelfStep (st : Chain × ℕ) : Option (Chain × ℕ) :=
  if st.2 < st.1.nrOfSegments then
    match st.1.getSegment st.2 with
    | some s => some (st.1.addSegment s, st.2 + 1)
    | none => none
  else none
/-- Assignment through the mutable reference returned by the non-const `getSegment`, chain.cpp:72. -/
def setSegment (c : Chain) (i : ℕ) (s : Segment) : Chain := { c with segments := c.segments.set i s }

/-- The class invariant. -/
def WF (c : Chain) : Prop := c.nrOfSegments = c.segments.length ∧ c.nrOfJoints = nMoving c.segments
/-- All segments well formed. -/
def Valid (c : Chain) : Prop := ∀ s ∈ c.segments, s.Valid
end Chain

/-! ## Jacobian: a list of columns (`data` has six rows), jacobian.cpp -/

/-- `KDL::Jacobian`: column `i` is the twist stored in `data.col(i)` (jacobian.cpp:144, :148). -/
abbrev Jac := List Twist

namespace Jac
/-- `Jacobian(n)`, jacobian.cpp:31. -/
def zeros (n : ℕ) : Jac := List.replicate n 0
/-- `SetToZero`, jacobian.cpp:79. -/
def setToZero (J : Jac) : Jac := J.map fun _ => 0
/-- `changeRefPoint`, jacobian.cpp:84. -/
def changeRefPoint (J : Jac) (v : Vec) : Jac := J.map fun t => t.refPoint v
/-- `changeBase`, jacobian.cpp:98. -/
def changeBase (J : Jac) (R : Rot) : Jac := J.map fun t => R * t
/-- `changeRefFrame`, jacobian.cpp:112. -/
def changeRefFrame (J : Jac) (F : Frame) : Jac := J.map fun t => F * t
/-- `setColumn`, jacobian.cpp:148: writing a column that does not exist is undefined behaviour (`none`). -/
def setColumn (J : Jac) (i : ℕ) (t : Twist) : Option Jac := if i < J.length then some (J.set i t) else none
end Jac

/-- `MultiplyJacobian`, jntarray.cpp:100: matrix times vector; `none` = sizes differ (Eigen precondition violated). -/
def multiplyJacobian (J : Jac) (q : List ℝ) : Option Twist :=
  if J.length = q.length then some ((List.zipWith (fun (t : Twist) (x : ℝ) => x • t) J q).foldr (· + ·) 0) else none

/-- `JntArray::resize`, jntarray.cpp:53: conservative, new entries zero. -/
def jntResize (q : List ℝ) (n : ℕ) : List ℝ := q.take n ++ List.replicate (n - q.length) 0

/-! ## Solver error codes, solveri.hpp:87–108 -/
def E_DEGRADED : Int := 1
def E_NOERROR : Int := 0
def E_NO_CONVERGE : Int := -1
def E_UNDEFINED : Int := -2
def E_NOT_UP_TO_DATE : Int := -3
def E_SIZE_MISMATCH : Int := -4
def E_MAX_ITERATIONS_EXCEEDED : Int := -5
def E_OUT_OF_RANGE : Int := -6
def E_NOT_IMPLEMENTED : Int := -7
def E_SVD_FAILED : Int := -8

end KDL
