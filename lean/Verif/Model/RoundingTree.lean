import Verif.Model.RoundingDyn
import Verif.Model.Tree

/-!
# Tree solvers in floating point arithmetic

The arithmetic is that of Model/Rounding.lean and Model/RoundingDyn.lean; the tree solvers use no product of a `Mat3` and a vector.
Citations are relative to `/repo/orocos_kdl/src`.
-/

noncomputable section
namespace KDL
namespace FlD
variable (F : FlD)

/-- `TreeFkSolverPos_recursive::recursiveFk`, treefksolverpos_recursive.cpp:48.  `q_in(q_nr)` is unchecked. -/
def recursiveFk (t : Tree) (q : List ℝ) : ℕ → String → Option Frame
  | 0, _ => none
  | fuel + 1, n => do
    let e ← t.find n
    let x ← q[e.q_nr]?
    if n = t.root_name then some (F.segPose e.segment x)
    else do
      let p ← e.parent
      let P ← recursiveFk t q fuel p
      some (F.frameMul P (F.segPose e.segment x))

/-- `TreeFkSolverPos_recursive::JntToCart`, treefksolverpos_recursive.cpp:33; the second component is the new `p_out`
(`none` = untouched). -/
def fkTree (t : Tree) (q : List ℝ) (n : String) : Option (Int × Option Frame) :=
  if q.length ≠ t.nrOfJoints then some (-1, none)
  else
    match t.find n with
    | none => some (-2, none)
    | some _ => (F.recursiveFk t q (t.segments.length + 1) n).map fun X => (0, some X)

/-- `changeBase`, jacobian.cpp:98. -/
def changeBase (J : Jac) (R : Rot) : Jac := J.map fun t => F.rotTwist R t

/-- Loop treejnttojacsolver.cpp:40–61: current element, `T_total`, `jac`. -/
def treeJacLoop (t : Tree) (q : List ℝ) : ℕ → String → Frame → Jac → Option (Frame × Jac)
  | 0, _, _, _ => none
  | fuel + 1, n, T, J =>
    if n = t.root_name then some (T, J)
    else do
      let e ← t.find n
      let x ← q[e.q_nr]?
      let T_local := F.segPose e.segment x
      let T' := F.frameMul T_local T
      let J' ← if e.moving then
          J.setColumn e.q_nr (F.rotInvTwist T'.M (F.refPoint (F.segTwist e.segment x 1) (F.vecSub T'.p T_local.p)))
        else some J
      let p ← e.parent
      treeJacLoop t q fuel p T' J'

/-- `TreeJntToJacSolver::JntToJac`, treejnttojacsolver.cpp:21. -/
def jacTree (t : Tree) (q : List ℝ) (jac : Jac) (n : String) : Option (Int × Jac) :=
  if q.length ≠ t.nrOfJoints ∨ jac.length ≠ t.nrOfJoints then some (-1, jac)
  else
    match t.find n with
    | none => some (-2, jac)
    | some _ => do
      let r ← F.treeJacLoop t q (t.segments.length + 1) n 1 jac.setToZero
      some (0, F.changeBase r.2 r.1.M)

end FlD
end KDL
