import Verif.Model.IkPos
import Verif.Model.IkVel
import Verif.Model.Lma
import Verif.Model.Macie
import Verif.Model.TreeDynamics
import Verif.Model.HybridDynamics
import Verif.Model.WrenchEstimator

/-! The member `error` of the solvers (solveri.hpp) and the descriptions given by `strError`. -/

noncomputable section
namespace KDL.SolverErr

/-- The classes derived from `SolverI`. -/
inductive Cls
  | fkPos | fkVel | jac | jacDot | posNr | posNrJl | posLma | velPinv | velGivens | velNso | velWdls
  | idRne | fdRne | dynParam | wrenchEst | treeId | hd
  deriving DecidableEq

/-- `SolverI::strError`, solveri.hpp:125–138. -/
def baseStr (e : Int) : String :=
  if E_NOERROR = e then "No error"
  else if E_NO_CONVERGE = e then "Failed to converge"
  else if E_UNDEFINED = e then "Undefined value"
  else if E_DEGRADED = e then "Converged but degraded solution"
  else if E_NOT_UP_TO_DATE = e then "Internal data structures not up to date with Chain"
  else if E_SIZE_MISMATCH = e then "The size of the input does not match the internal state"
  else if E_MAX_ITERATIONS_EXCEEDED = e then "The maximum number of iterations is exceeded"
  else if E_OUT_OF_RANGE = e then "The requested index is out of range"
  else if E_NOT_IMPLEMENTED = e then "The requested function is not yet implemented"
  else if E_SVD_FAILED = e then "SVD failed"
  else "UNKNOWN ERROR"

/-- `strError` of the classes; those without an own one inherit `SolverI::strError`. -/
def strError : Cls → Int → String
  /- chainiksolverpos_nr.cpp:74 -/
  | .posNr, e => if E_IKSOLVER_FAILED = e then "Child IK solver failed"
      else if E_FKSOLVERPOS_FAILED = e then "Child FK solver failed" else baseStr e
  /- chainiksolverpos_nr_jl.cpp:115 -/
  | .posNrJl, e => if E_FKSOLVERPOS_FAILED = e then "Internal forward position solver failed."
      else if E_IKSOLVER_FAILED = e then "Internal inverse velocity solver failed." else baseStr e
  /- chainiksolverpos_lma.cpp:317 -/
  | .posLma, e => if E_GRADIENT_JOINTS_TOO_SMALL = e then "The gradient of E towards the joints is to small"
      else if E_INCREMENT_JOINTS_TOO_SMALL = e then "The joint position increments are to small" else baseStr e
  /- chainiksolvervel_pinv.cpp:132; inherited by no other class -/
  | .velPinv, e => if E_CONVERGE_PINV_SINGULAR = e then "Converged put pseudo inverse of jacobian is singular." else baseStr e
  /- chainiksolvervel_wdls.cpp:218 -/
  | .velWdls, e => if E_CONVERGE_PINV_SINGULAR = e then "Converged put pseudo inverse of jacobian is singular." else baseStr e
  /- chainjnttojacdotsolver.cpp:241; the codes are those of chainjnttojacdotsolver.hpp:51–53 -/
  | .jacDot, e => if -100 = e then "Jac Dot Failed" else if -101 = e then "Jac Solver Failed"
      else if -102 = e then "FK Position Solver Failed" else baseStr e
  /- chainexternalwrenchestimator.cpp:204; the codes are those of chainexternalwrenchestimator.hpp:49–53 -/
  | .wrenchEst, e => if -100 = e then "Internally-used Forward Position Kinematics (Recursive) solver failed"
      else if -101 = e then "Internally-used Jacobian solver failed"
      else if -102 = e then "Internally-used Dynamics Parameters (Mass) solver failed"
      else if -103 = e then "Internally-used Dynamics Parameters (Coriolis) solver failed"
      else if -104 = e then "Internally-used Dynamics Parameters (Gravity) solver failed" else baseStr e
  | _, e => baseStr e

/-- The member functions that return a code. -/
inductive Meth
  | fkPos | fkPosAll | fkVel | fkVelAll | jac | jacLock | jacDot | jacDotTwist | jacDotLock
  | nr | jl | jlLimits | lma | pinv | givens | nso | nsoWeights | nsoOptPos | nsoAlpha | wdls | wdlsJS | wdlsTS
  | idRne | fdRne | mass | coriolis | gravity | estInit | est | treeId | hd
  deriving DecidableEq

/-- The class a member function belongs to. -/
def Meth.cls : Meth → Cls
  | .fkPos => .fkPos | .fkPosAll => .fkPos | .fkVel => .fkVel | .fkVelAll => .fkVel
  | .jac => .jac | .jacLock => .jac | .jacDot => .jacDot | .jacDotTwist => .jacDot | .jacDotLock => .jacDot
  | .nr => .posNr | .jl => .posNrJl | .jlLimits => .posNrJl | .lma => .posLma
  | .pinv => .velPinv | .givens => .velGivens
  | .nso => .velNso | .nsoWeights => .velNso | .nsoOptPos => .velNso | .nsoAlpha => .velNso
  | .wdls => .velWdls | .wdlsJS => .velWdls | .wdlsTS => .velWdls
  | .idRne => .idRne | .fdRne => .fdRne | .mass => .dynParam | .coriolis => .dynParam | .gravity => .dynParam
  | .estInit => .wrenchEst | .est => .wrenchEst | .treeId => .treeId | .hd => .hd

/-- Return statements `return x;` that, unlike `return (error = x);`, leave the member `error` as it was.  They are told
apart from the others of the same function by the code they return:
chainfksolverpos_recursive.cpp:68–92, chainfksolvervel_recursive.cpp:79–108 (all of the overloads for vectors),
chainjnttojacdotsolver.cpp:230 (size mismatch), chainiksolverpos_nr.cpp:65 (success, possibly degraded),
chainiksolvervel_pinv_nso.cpp:185, chaindynparam.cpp:134 and :146 (whatever the solver inside returns). -/
def keeps : Meth → Int → Bool
  | .fkPosAll, _ => true
  | .fkVelAll, _ => true
  | .jacDotLock, e => e == E_SIZE_MISMATCH
  | .nr, e => e == E_NOERROR || e == E_DEGRADED
  | .nsoAlpha, _ => true
  | .coriolis, _ => true
  | .gravity, _ => true
  | _, _ => false

/-- `getError()` (solveri.hpp:119) after a call that returned `code` on an object where it was `old` before. -/
def getErrorAfter (m : Meth) (old code : Int) : Int := if keeps m code then old else code

/-- `getError()` after a sequence of calls on a new object; the constructor of `SolverI` sets `E_NOERROR`
(solveri.hpp:112). -/
def getError : List (Meth × Int) → Int
  | [] => E_NOERROR
  | calls => calls.foldl (fun old c => getErrorAfter c.1 old c.2) E_NOERROR

end KDL.SolverErr
