import Verif.Model.Chain
import Verif.Model.FrameVel

/-!
# Model of the chain position, velocity, Jacobian and Jacobian-derivative solvers

`chainfksolverpos_recursive.cpp`, `chainfksolvervel_recursive.cpp`, `chainjnttojacsolver.cpp`,
`chainjnttojacdotsolver.cpp`.  All citations are relative to `/repo/orocos_kdl/src`.

A `JntArray` is a list of reals.  Reading `q_in(j)` outside the list is undefined behaviour: the solver models return
`none`.  The loops over `i < segmentNr` run over `segments.take segmentNr`; since the code has checked
`segmentNr ≤ nrOfSegments`, and `nrOfSegments` is the length of the list (C24), this is the same sequence of segments.
Every loop carries the joint counter `j` explicitly, as the code does.
-/

noncomputable section

namespace KDL

/-- `segmentNr` from the `int seg_nr` argument: a negative number means all segments
(chainfksolverpos_recursive.cpp:35–39 and the other solvers). -/
def segmentNr (c : Chain) (seg_nr : ℤ) : ℕ := if seg_nr < 0 then c.nrOfSegments else seg_nr.toNat

/-! ## Position -/

/-- Loop of chainfksolverpos_recursive.cpp:49–58. -/
def fkLoop (q : List ℝ) : List Segment → ℕ → Frame → Option Frame
  | [], _, p => some p
  | s :: ss, j, p =>
    if s.moving then do
      let qj ← q[j]?
      fkLoop q ss (j + 1) (p * s.pose qj)
    else fkLoop q ss j (p * s.pose 0)

/-- `ChainFkSolverPos_recursive::JntToCart(q_in, Frame&, seg_nr)`, chainfksolverpos_recursive.cpp:34.
Result: return code and `p_out`. -/
def fkPos (c : Chain) (q : List ℝ) (seg_nr : ℤ) : Option (Int × Frame) :=
  let n := segmentNr c seg_nr
  if q.length ≠ c.nrOfJoints then some (E_SIZE_MISMATCH, 1)
  else if n > c.nrOfSegments then some (E_OUT_OF_RANGE, 1)
  else do
    let p ← fkLoop q (c.segments.take n) 0 1
    some (E_NOERROR, p)

/-- Loop of chainfksolverpos_recursive.cpp:84–91: the frames of segments 1, 2, … given the frame before. -/
def fkAllLoop (q : List ℝ) : List Segment → ℕ → Frame → Option (List Frame)
  | [], _, _ => some []
  | s :: ss, j, p =>
    if s.moving then do
      let qj ← q[j]?
      let rest ← fkAllLoop q ss (j + 1) (p * s.pose qj)
      some (p * s.pose qj :: rest)
    else do
      let rest ← fkAllLoop q ss j (p * s.pose 0)
      some (p * s.pose 0 :: rest)

/-- `ChainFkSolverPos_recursive::JntToCart(q_in, std::vector<Frame>&, seg_nr)`, chainfksolverpos_recursive.cpp:60.
`outSize` is the size of the caller's vector.  All failures return the literal `-1`; `none` in the second component
means the output is left untouched. -/
def fkPosAll (c : Chain) (q : List ℝ) (outSize : ℕ) (seg_nr : ℤ) : Option (Int × Option (List Frame)) :=
  let n := segmentNr c seg_nr
  if q.length ≠ c.nrOfJoints then some (-1, none)
  else if n > c.nrOfSegments then some (-1, none)
  else if outSize ≠ n then some (-1, none)
  else if n = 0 then some (-1, none)
  else
    match c.segments.take n with
    | [] => none
    | s :: ss =>
      if s.moving then do
        let qj ← q[0]?
        let rest ← fkAllLoop q ss 1 (s.pose qj)
        some (0, some (s.pose qj :: rest))
      else do
        let rest ← fkAllLoop q ss 0 (s.pose 0)
        some (0, some (s.pose 0 :: rest))

/-! ## Velocity -/

/-- `FrameVel(Frame, Twist)`, framevel.hpp:226. -/
def FrameVel.ofTwist (F : Frame) (t : Twist) : FrameVel := ⟨⟨F.M, t.rot⟩, ⟨F.p, t.vel⟩⟩

/-- Loop of chainfksolvervel_recursive.cpp:53–63. -/
def fkVelLoop (q qd : List ℝ) : List Segment → ℕ → FrameVel → Option FrameVel
  | [], _, p => some p
  | s :: ss, j, p =>
    if s.moving then do
      let qj ← q[j]?
      let qdj ← qd[j]?
      fkVelLoop q qd ss (j + 1) (p.mul (.ofTwist (s.pose qj) (s.twist qj qdj)))
    else fkVelLoop q qd ss j (p.mul (.ofTwist (s.pose 0) (s.twist 0 0)))

/-- `ChainFkSolverVel_recursive::JntToCart(in, FrameVel&, seg_nr)`, chainfksolvervel_recursive.cpp:37. -/
def fkVel (c : Chain) (q qd : List ℝ) (seg_nr : ℤ) : Option (Int × FrameVel) :=
  let n := segmentNr c seg_nr
  if ¬ (q.length = c.nrOfJoints ∧ qd.length = c.nrOfJoints) then some (E_SIZE_MISMATCH, .ofFrame 1)
  else if n > c.nrOfSegments then some (E_OUT_OF_RANGE, .ofFrame 1)
  else do
    let p ← fkVelLoop q qd (c.segments.take n) 0 (.ofFrame 1)
    some (E_NOERROR, p)

/-- Loop of chainfksolvervel_recursive.cpp:97–108. -/
def fkVelAllLoop (q qd : List ℝ) : List Segment → ℕ → FrameVel → Option (List FrameVel)
  | [], _, _ => some []
  | s :: ss, j, p =>
    if s.moving then do
      let qj ← q[j]?
      let qdj ← qd[j]?
      let p' := p.mul (.ofTwist (s.pose qj) (s.twist qj qdj))
      let rest ← fkVelAllLoop q qd ss (j + 1) p'
      some (p' :: rest)
    else do
      let p' := p.mul (.ofTwist (s.pose 0) (s.twist 0 0))
      let rest ← fkVelAllLoop q qd ss j p'
      some (p' :: rest)

/-- `ChainFkSolverVel_recursive::JntToCart(in, std::vector<FrameVel>&, seg_nr)`, chainfksolvervel_recursive.cpp:68. -/
def fkVelAll (c : Chain) (q qd : List ℝ) (outSize : ℕ) (seg_nr : ℤ) : Option (Int × Option (List FrameVel)) :=
  let n := segmentNr c seg_nr
  if ¬ (q.length = c.nrOfJoints ∧ qd.length = c.nrOfJoints) then some (-1, none)
  else if n > c.nrOfSegments then some (-1, none)
  else if outSize ≠ n then some (-1, none)
  else if n = 0 then some (-1, none)
  else
    match c.segments.take n with
    | [] => none
    | s :: ss =>
      if s.moving then do
        let q0 ← q[0]?
        let qd0 ← qd[0]?
        let rest ← fkVelAllLoop q qd ss 1 (.ofTwist (s.pose q0) (s.twist q0 qd0))
        some (0, some (.ofTwist (s.pose q0) (s.twist q0 qd0) :: rest))
      else do
        let rest ← fkVelAllLoop q qd ss 0 (.ofTwist (s.pose 0) (s.twist 0 0))
        some (0, some (.ofTwist (s.pose 0) (s.twist 0 0) :: rest))

/-! ## Jacobian -/

/-- `ChainJntToJacSolver::setLockedJoints`, chainjnttojacsolver.cpp:38.  Result: code and new `locked_joints_`. -/
def setLockedJoints (c : Chain) (locked arg : List Bool) : Int × List Bool :=
  if locked.length ≠ c.nrOfJoints then (E_NOT_UP_TO_DATE, locked)
  else if arg.length ≠ locked.length then (E_SIZE_MISMATCH, locked)
  else (E_NOERROR, arg)

/-- `ChainJntToJacSolver::updateInternalDataStructures`, chainjnttojacsolver.cpp:31 (`vector<bool>::resize`). -/
def lockedResize (locked : List Bool) (n : ℕ) : List Bool := locked.take n ++ List.replicate (n - locked.length) false

/-- Loop of chainjnttojacsolver.cpp:71–96; state: joint counter `j`, column counter `k`, `T_tmp`, `jac`.  The member
`t_tmp` is only read in the iteration that wrote it. -/
def jacLoop (q : List ℝ) (locked : List Bool) : List Segment → ℕ → ℕ → Frame → Jac → Option (Frame × Jac)
  | [], _, _, T, J => some (T, J)
  | s :: ss, j, k, T, J =>
    if s.moving then do
      let qj ← q[j]?
      let lk ← locked[j]?
      let total := T * s.pose qj
      let J1 := J.changeRefPoint (total.p - T.p)
      if lk then jacLoop q locked ss (j + 1) k total J1
      else do
        let J2 ← J1.setColumn k (T.M * s.twist qj 1)
        jacLoop q locked ss (j + 1) (k + 1) total J2
    else
      let total := T * s.pose 0
      jacLoop q locked ss j k total (J.changeRefPoint (total.p - T.p))

/-- `ChainJntToJacSolver::JntToJac`, chainjnttojacsolver.cpp:48.  Result: code and the new contents of `jac`. -/
def jntToJac (c : Chain) (locked : List Bool) (q : List ℝ) (jac : Jac) (seg_nr : ℤ) : Option (Int × Jac) :=
  if locked.length ≠ c.nrOfJoints then some (E_NOT_UP_TO_DATE, jac)
  else
    let n := segmentNr c seg_nr
    let J0 := jac.setToZero
    if q.length ≠ c.nrOfJoints ∨ jac.length ≠ c.nrOfJoints then some (E_SIZE_MISMATCH, J0)
    else if n > c.nrOfSegments then some (E_OUT_OF_RANGE, J0)
    else do
      let r ← jacLoop q locked (c.segments.take n) 0 0 1 J0
      some (E_NOERROR, r.2)

/-! ## Time derivative of the Jacobian -/

/-- Representations, chainjnttojacdotsolver.hpp:56–60. -/
inductive JacRep
  | hybrid | bodyFixed | inertial
  deriving DecidableEq

/-- `getPartialDerivativeHybrid`, chainjnttojacdotsolver.cpp:144; arguments: the two columns and their indices. -/
def pdHybrid (Jj Ji : Twist) (j i : ℕ) : Twist :=
  if j < i then ⟨Jj.rot * Ji.vel, Jj.rot * Ji.rot⟩
  else if j > i then ⟨-Jj.vel * Ji.rot, 0⟩
  else ⟨Ji.rot * Ji.vel, 0⟩
/-- `getPartialDerivativeBodyFixed`, chainjnttojacdotsolver.cpp:175. -/
def pdBodyFixed (Jj Ji : Twist) (j i : ℕ) : Twist :=
  if j > i then -⟨Jj.rot * Ji.vel + Jj.vel * Ji.rot, Jj.rot * Ji.rot⟩ else 0
/-- `getPartialDerivativeInertial`, chainjnttojacdotsolver.cpp:197. -/
def pdInertial (Jj Ji : Twist) (j i : ℕ) : Twist :=
  if j < i then ⟨Jj.rot * Ji.vel + Jj.vel * Ji.rot, Jj.rot * Ji.rot⟩ else 0
/-- `getPartialDerivative`, chainjnttojacdotsolver.cpp:125 (the representation is always one of the three, :218). -/
def pd (r : JacRep) (Jj Ji : Twist) (j i : ℕ) : Twist :=
  match r with
  | .hybrid => pdHybrid Jj Ji j i
  | .bodyFixed => pdBodyFixed Jj Ji j i
  | .inertial => pdInertial Jj Ji j i

/-- Inner loop chainjnttojacdotsolver.cpp:111–116 over `j = j0, …, j0+n-1`. -/
def jacDotCol (r : JacRep) (J : Jac) (locked : List Bool) (qd : List ℝ) (k : ℕ) : ℕ → ℕ → Twist → Option Twist
  | _, 0, acc => some acc
  | j, n + 1, acc => do
    let lk ← locked[j]?
    if lk then jacDotCol r J locked qd k (j + 1) n acc
    else do
      let Jj ← J[j]?
      let Jk ← J[k]?
      let x ← qd[j]?
      jacDotCol r J locked qd k (j + 1) n (acc + x • pd r Jj Jk j k)

/-- Outer loop chainjnttojacdotsolver.cpp:105–120. -/
def jacDotLoop (r : JacRep) (nj : ℕ) (J : Jac) (locked : List Bool) (qd : List ℝ) :
    List Segment → ℕ → Jac → Option Jac
  | [], _, D => some D
  | s :: ss, k, D =>
    if s.moving then do
      let t ← jacDotCol r J locked qd k 0 nj 0
      let D' ← D.setColumn k t
      jacDotLoop r nj J locked qd ss (k + 1) D'
    else jacDotLoop r nj J locked qd ss k D

/-- The mutable members of `ChainJntToJacDotSolver` that matter (chainjnttojacdotsolver.hpp:167–180); `jacLocked` is
`locked_joints_` of the contained `jac_solver_`. -/
structure JacDotState where
  locked : List Bool
  nrUnlocked : ℕ
  jacLocked : List Bool
  jac : Jac
  jacDot : Jac
  rep : JacRep

/-- Constructor, chainjnttojacdotsolver.cpp:34. -/
def JacDotState.init (c : Chain) : JacDotState :=
  ⟨List.replicate c.nrOfJoints false, c.nrOfJoints, List.replicate c.nrOfJoints false, Jac.zeros c.nrOfJoints,
   Jac.zeros c.nrOfJoints, .hybrid⟩
/-- `setLockedJoints`, chainjnttojacdotsolver.cpp:227.  The contained Jacobian solver is not told. -/
def JacDotState.setLocked (s : JacDotState) (arg : List Bool) : Int × JacDotState :=
  if arg.length ≠ s.locked.length then (E_SIZE_MISMATCH, s)
  else (E_NOERROR, { s with locked := arg, nrUnlocked := arg.countP (fun b => !b) })

/-- Representation change chainjnttojacdotsolver.cpp:89–102, applied to the hybrid Jacobian. -/
def toRep (r : JacRep) (F : Frame) (J : Jac) : Jac :=
  match r with
  | .hybrid => J
  | .bodyFixed => J.changeBase F.M.inv
  | .inertial => J.changeRefPoint (-F.p)

/-- `JntToJacDot(q_in, Jacobian&, seg_nr)`, chainjnttojacdotsolver.cpp:65.  Result: code and new `jdot`.
`E_JACSOLVER_FAILED = -101`, `E_FKSOLVERPOS_FAILED = -102`.  The inner solvers get the
non-negative `segmentNr`; the position solver is evaluated here also for the hybrid representation (no side effect). -/
def jntToJacDot (c : Chain) (st : JacDotState) (q qd : List ℝ) (jdot : Jac) (seg_nr : ℤ) : Option (Int × Jac) :=
  if st.locked.length ≠ c.nrOfJoints then some (E_NOT_UP_TO_DATE, jdot)
  else
    let n := segmentNr c seg_nr
    let D0 := jdot.setToZero
    if q.length ≠ c.nrOfJoints ∨ st.nrUnlocked ≠ jdot.length then some (E_SIZE_MISMATCH, D0)
    else if n > c.nrOfSegments then some (E_OUT_OF_RANGE, D0)
    else do
      let rj ← jntToJac c st.jacLocked q st.jac n
      if rj.1 ≠ E_NOERROR then some (-101, D0)
      else do
        let rf ← fkPos c q n
        if st.rep ≠ .hybrid ∧ rf.1 ≠ E_NOERROR then some (-102, D0)
        else do
          let D ← jacDotLoop st.rep c.nrOfJoints (toRep st.rep rf.2 rj.2) st.locked qd (c.segments.take n) 0 D0
          some (E_NOERROR, D)

/-- `JntToJacDot(q_in, Twist&, seg_nr)`, chainjnttojacdotsolver.cpp:55. -/
def jntToJacDotTwist (c : Chain) (st : JacDotState) (q qd : List ℝ) (seg_nr : ℤ) : Option (Int × Option Twist) := do
  let r ← jntToJacDot c st q qd st.jacDot seg_nr
  if r.1 ≠ E_NOERROR then some (r.1, none)
  else do
    let t ← multiplyJacobian r.2 qd
    some (E_NOERROR, some t)

end KDL
