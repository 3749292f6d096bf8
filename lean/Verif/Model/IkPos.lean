import Verif.Model.ChainKin

/-!
# Model of the Newton-Raphson inverse position solvers

`chainiksolverpos_nr.cpp` and `chainiksolverpos_nr_jl.cpp`.  All citations are relative to `/repo/orocos_kdl/src`.

The two inner solvers are virtual interfaces (`ChainFkSolverPos&`, `ChainIkSolverVel&`), so they are parameters of the
model.  An inner solver may carry state from call to call; the parameters therefore take the number of the loop
iteration as an additional argument, so that a theorem for all parameters covers every stateful solver.  `none` is
undefined behaviour inside the inner solver.  `JntArray`s are lists of reals.
-/

noncomputable section

namespace KDL

/-- A forward position solver as seen by the loop: iteration number and `q_in` to return code and `p_out`
(chainfksolver.hpp:44). -/
abbrev PosSolver := ℕ → List ℝ → Option (Int × Frame)

/-- An inverse velocity solver as seen by the loop: iteration number, `q_in`, `v_in` to return code and `qdot_out`
(chainiksolver.hpp:76). -/
abbrev VelSolver := ℕ → List ℝ → Twist → Option (Int × List ℝ)

/-- `Add(JntArray,JntArray,JntArray)`, jntarray.cpp:80.  Eigen asserts equal sizes (undefined behaviour otherwise). -/
def jntAdd (a b : List ℝ) : Option (List ℝ) := if a.length = b.length then some (List.zipWith (· + ·) a b) else none

/-- `E_IKSOLVER_FAILED` (chainiksolverpos_nr.hpp:41) and `E_IKSOLVERVEL_FAILED` (chainiksolverpos_nr_jl.hpp:44). -/
def E_IKSOLVER_FAILED : Int := -100
/-- `E_FKSOLVERPOS_FAILED`, chainiksolverpos_nr.hpp:42 and chainiksolverpos_nr_jl.hpp:45. -/
def E_FKSOLVERPOS_FAILED : Int := -101

/-- What a call leaves behind: the returned code, the member `error` (read by `getError()`, solveri.hpp:119) and the
caller's `q_out`. -/
structure IkResult where
  ret : Int
  error : Int
  q_out : List ℝ

/-- Members of `ChainIkSolverPos_NR` (chainiksolverpos_nr.hpp:80–91) that outlive a call and influence later ones.
`delta_q`, `f` and `delta_twist` are overwritten before they are read. -/
structure NrState where
  nj : ℕ
  maxiter : ℕ
  eps : ℝ
  error : Int

/-- Constructor, chainiksolverpos_nr.cpp:26.  `error` is set by the base class (solveri.hpp:112). -/
def NrState.new (c : Chain) (maxiter : ℕ) (eps : ℝ) : NrState := ⟨c.nrOfJoints, maxiter, eps, E_NOERROR⟩

/-- `updateInternalDataStructures`, chainiksolverpos_nr.cpp:35. -/
def NrState.update (s : NrState) (c : Chain) : NrState := { s with nj := c.nrOfJoints }

open Classical in
/-- Loop of `ChainIkSolverPos_NR::CartToJnt`, chainiksolverpos_nr.cpp:53–67.  The first number counts the remaining
iterations `maxiter - i`, the second is `i`.  `err` is the value of the member `error` on entry. -/
def nrLoop (fk : PosSolver) (ik : VelSolver) (p_in : Frame) (eps : ℝ) (err : Int) :
    ℕ → ℕ → List ℝ → Option IkResult
  | 0, _, q => some ⟨E_MAX_ITERATIONS_EXCEEDED, E_MAX_ITERATIONS_EXCEEDED, q⟩
  | n + 1, i, q => do
    let (c, f) ← fk i q
    if c < E_NOERROR then some ⟨E_FKSOLVERPOS_FAILED, E_FKSOLVERPOS_FAILED, q⟩
    else do
      let delta_twist := Frame.diff f p_in 1
      let (rc, delta_q) ← ik i q delta_twist
      if rc < E_NOERROR then some ⟨E_IKSOLVER_FAILED, E_IKSOLVER_FAILED, q⟩
      else do
        let q' ← jntAdd q delta_q
        if Twist.equal delta_twist 0 eps then some ⟨if rc > E_NOERROR then E_DEGRADED else E_NOERROR, err, q'⟩
        else nrLoop fk ik p_in eps err n (i + 1) q'

/-- `ChainIkSolverPos_NR::CartToJnt`, chainiksolverpos_nr.cpp:42. -/
def NrState.cartToJnt (s : NrState) (c : Chain) (fk : PosSolver) (ik : VelSolver) (q_init : List ℝ) (p_in : Frame)
    (q_out : List ℝ) : Option IkResult :=
  if s.nj ≠ c.nrOfJoints then some ⟨E_NOT_UP_TO_DATE, E_NOT_UP_TO_DATE, q_out⟩
  else if q_init.length ≠ s.nj ∨ q_out.length ≠ s.nj then some ⟨E_SIZE_MISMATCH, E_SIZE_MISMATCH, q_out⟩
  else nrLoop fk ik p_in s.eps s.error s.maxiter 0 q_init

/-! ## With joint limits -/

/-- `std::numeric_limits<double>::min()`: the smallest positive normal double, `2^-1022`. -/
def dblMin : ℝ := ((2 : ℝ) ^ (1022 : ℕ))⁻¹
/-- `std::numeric_limits<double>::max()`, `(2 - 2^-52) 2^1023`. -/
def dblMax : ℝ := (2 - ((2 : ℝ) ^ (52 : ℕ))⁻¹) * 2 ^ (1023 : ℕ)

/-- Members of `ChainIkSolverPos_NR_JL` (chainiksolverpos_nr_jl.hpp:112–124). -/
structure NrJlState where
  nj : ℕ
  q_min : List ℝ
  q_max : List ℝ
  maxiter : ℕ
  eps : ℝ
  error : Int

namespace NrJlState

/-- Constructor with limits, chainiksolverpos_nr_jl.cpp:30. -/
def new (c : Chain) (q_min q_max : List ℝ) (maxiter : ℕ) (eps : ℝ) : NrJlState :=
  ⟨c.nrOfJoints, q_min, q_max, maxiter, eps, E_NOERROR⟩

/-- Constructor without limits, chainiksolverpos_nr_jl.cpp:41–51. -/
def newDefault (c : Chain) (maxiter : ℕ) (eps : ℝ) : NrJlState :=
  ⟨c.nrOfJoints, List.replicate c.nrOfJoints dblMin, List.replicate c.nrOfJoints dblMax, maxiter, eps, E_NOERROR⟩

/-- `conservativeResizeLike(Constant(n, x))`: keeps the old entries and takes the new ones from the argument. -/
def resizeWith (x : ℝ) (q : List ℝ) (n : ℕ) : List ℝ := q.take n ++ List.replicate (n - q.length) x

/-- `updateInternalDataStructures`, chainiksolverpos_nr_jl.cpp:53. -/
def update (s : NrJlState) (c : Chain) : NrJlState :=
  { s with nj := c.nrOfJoints, q_min := resizeWith dblMin s.q_min c.nrOfJoints,
           q_max := resizeWith dblMax s.q_max c.nrOfJoints }

/-- `setJointLimits`, chainiksolverpos_nr_jl.cpp:103. -/
def setJointLimits (s : NrJlState) (q_min q_max : List ℝ) : Int × NrJlState :=
  if q_min.length ≠ s.nj ∨ q_max.length ≠ s.nj then (E_SIZE_MISMATCH, { s with error := E_SIZE_MISMATCH })
  else (E_NOERROR, { s with q_min := q_min, q_max := q_max, error := E_NOERROR })

/-- The two loops of chainiksolverpos_nr_jl.cpp:85–94 on lists of the same length. -/
def clampLow (q lo : List ℝ) : List ℝ := List.zipWith (fun x l => if x < l then l else x) q lo
/-- See `clampLow`. -/
def clampHigh (q hi : List ℝ) : List ℝ := List.zipWith (fun x h => if x > h then h else x) q hi

open Classical in
/-- Loop of `ChainIkSolverPos_NR_JL::CartToJnt`, chainiksolverpos_nr_jl.cpp:73–100. -/
def loop (fk : PosSolver) (ik : VelSolver) (p_in : Frame) (eps : ℝ) (q_min q_max : List ℝ) :
    ℕ → ℕ → List ℝ → Option IkResult
  | 0, _, q => some ⟨E_MAX_ITERATIONS_EXCEEDED, E_MAX_ITERATIONS_EXCEEDED, q⟩
  | n + 1, i, q => do
    let (c, f) ← fk i q
    if c < 0 then some ⟨E_FKSOLVERPOS_FAILED, E_FKSOLVERPOS_FAILED, q⟩
    else
      let delta_twist := Frame.diff f p_in 1
      if Twist.equal delta_twist 0 eps then some ⟨E_NOERROR, E_NOERROR, q⟩
      else do
        let (rc, delta_q) ← ik i q delta_twist
        if rc < 0 then some ⟨E_IKSOLVER_FAILED, E_IKSOLVER_FAILED, q⟩
        else do
          let q' ← jntAdd q delta_q
          loop fk ik p_in eps q_min q_max n (i + 1) (clampHigh (clampLow q' q_min) q_max)

/-- `ChainIkSolverPos_NR_JL::CartToJnt`, chainiksolverpos_nr_jl.cpp:62. -/
def cartToJnt (s : NrJlState) (c : Chain) (fk : PosSolver) (ik : VelSolver) (q_init : List ℝ) (p_in : Frame)
    (q_out : List ℝ) : Option IkResult :=
  if s.nj ≠ c.nrOfJoints then some ⟨E_NOT_UP_TO_DATE, E_NOT_UP_TO_DATE, q_out⟩
  else if s.nj ≠ q_init.length ∨ s.nj ≠ q_out.length ∨ s.nj ≠ s.q_min.length ∨ s.nj ≠ s.q_max.length then
    some ⟨E_SIZE_MISMATCH, E_SIZE_MISMATCH, q_out⟩
  else loop fk ik p_in s.eps s.q_min s.q_max s.maxiter 0 q_init

end NrJlState

end KDL
