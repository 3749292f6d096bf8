import Verif.Model.ChainKin

/-!
The remaining member functions of `ChainJntToJacDotSolver` that change its state.
All citations are relative to `/repo/orocos_kdl/src`.
-/

noncomputable section
namespace KDL

/-- `setRepresentation`, chainjnttojacdotsolver.cpp:218, with the constants `HYBRID = 0`, `BODYFIXED = 1`,
`INERTIAL = 2` of chainjnttojacdotsolver.hpp:56–60; other numbers are ignored without a report. -/
def JacDotState.setRepresentation (s : JacDotState) (r : Int) : JacDotState :=
  if r = 0 then { s with rep := .hybrid }
  else if r = 1 then { s with rep := .bodyFixed }
  else if r = 2 then { s with rep := .inertial }
  else s
/-- `setHybridRepresentation`, chainjnttojacdotsolver.hpp:91. -/
def JacDotState.setHybrid (s : JacDotState) : JacDotState := s.setRepresentation 0
/-- `setBodyFixedRepresentation`, chainjnttojacdotsolver.hpp:97. -/
def JacDotState.setBodyFixed (s : JacDotState) : JacDotState := s.setRepresentation 1
/-- `setInertialRepresentation`, chainjnttojacdotsolver.hpp:103. -/
def JacDotState.setInertial (s : JacDotState) : JacDotState := s.setRepresentation 2

/-- `Jacobian::resize`, jacobian.cpp:54 (`conservativeResize`): kept columns stay, `junk` are the uninitialised new
ones (at least as many as needed). -/
def jacResize (J : Jac) (n : ℕ) (junk : Jac) : Jac := (J ++ junk).take n

/-- `updateInternalDataStructures`, chainjnttojacdotsolver.cpp:46; `c` is the chain after the change.  The position
solver has no state of its own.  `setLockedJoints` gets the resized member itself, so it cannot fail. -/
def JacDotState.update (s : JacDotState) (c : Chain) (junk junk' : Jac) : JacDotState :=
  let l := lockedResize s.locked c.nrOfJoints
  let s' := (({ s with locked := l } : JacDotState).setLocked l).2
  { s' with jacLocked := lockedResize s.jacLocked c.nrOfJoints,
            jac := jacResize s.jac c.nrOfJoints junk, jacDot := jacResize s.jacDot c.nrOfJoints junk' }

end KDL
