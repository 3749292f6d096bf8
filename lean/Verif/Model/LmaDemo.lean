import Verif.Model.Lma
import Verif.Model.ChainKin

/-!
# Model of the demonstration program `orocos_kdl/examples/chainiksolverpos_lma_demo.cpp`

The random joint positions (`setRandom`, lines 101–104) are a parameter: one pair `q`, `q_init` per trial.  Output and time
measurement are left out; the counters of type `int` are integers here (see `C83_total` for their range).
-/

noncomputable section
namespace KDL

/-- `ChainIkSolverPos_LMA::display_jac`, chainiksolverpos_lma.cpp:177: the singular values shown, and the solver object
afterwards. -/
def LmaState.displayJac (s : LmaState) (c : Chain) (svd : ThinSvdFn) (jval : List ℝ) : Option (List ℝ × LmaState) := do
  let w ← lmaFwdpos c jval s.fk
  let J ← lmaJacobian c jval w s.jac
  let sv := List.ofFn (svd s.nj (jacMat s.nj J)).S
  some (sv, { s with fk := w, jac := J, sv := some sv })

/-- The statistics, chainiksolverpos_lma_demo.cpp:78–91. -/
structure DemoStat where
  total_number_of_iter : ℤ := 0
  nrofresult_ok : ℤ := 0
  nrofresult_minus1 : ℤ := 0
  nrofresult_minus2 : ℤ := 0
  nrofresult_minus3 : ℤ := 0
  min_num_of_iter : ℤ := 10000000
  max_num_of_iter : ℤ := 0
  min_diff : ℝ := 10 ^ 10
  max_diff : ℝ := 0
  min_trans_diff : ℝ := 10 ^ 10
  max_trans_diff : ℝ := 0
  min_rot_diff : ℝ := 10 ^ 10
  max_rot_diff : ℝ := 0

/-- `switch (retval)`, lines 111–124. -/
def DemoStat.count (d : DemoStat) (retval : Int) : DemoStat :=
  if retval = 0 then { d with nrofresult_ok := d.nrofresult_ok + 1 }
  else if retval = -1 then { d with nrofresult_minus1 := d.nrofresult_minus1 + 1 }
  else if retval = -2 then { d with nrofresult_minus2 := d.nrofresult_minus2 + 1 }
  else if retval = -3 then { d with nrofresult_minus3 := d.nrofresult_minus3 + 1 }
  else d

/-- Iteration counts, lines 142–144. -/
def DemoStat.iterations (d : DemoStat) (s : LmaState) : DemoStat :=
  let d := { d with total_number_of_iter := d.total_number_of_iter + s.lastNrOfIter }
  let d := if (s.lastNrOfIter : ℤ) > d.max_num_of_iter then { d with max_num_of_iter := s.lastNrOfIter } else d
  if (s.lastNrOfIter : ℤ) < d.min_num_of_iter then { d with min_num_of_iter := s.lastNrOfIter } else d

open Classical in
/-- Differences, lines 146–153. -/
def DemoStat.differences (d : DemoStat) (s : LmaState) : DemoStat :=
  let d := if s.lastDifference > d.max_diff then { d with max_diff := s.lastDifference } else d
  let d := if s.lastDifference < d.min_diff then { d with min_diff := s.lastDifference } else d
  let d := if s.lastTransDiff > d.max_trans_diff then { d with max_trans_diff := s.lastTransDiff } else d
  let d := if s.lastTransDiff < d.min_trans_diff then { d with min_trans_diff := s.lastTransDiff } else d
  let d := if s.lastRotDiff > d.max_trans_diff then { d with max_rot_diff := s.lastRotDiff } else d
  if s.lastRotDiff < d.min_trans_diff then { d with min_rot_diff := s.lastRotDiff } else d

/-- What the program carries from one trial to the next: `solver`, `q_sol` and the statistics. -/
structure DemoSt where
  solver : LmaState
  q_sol : List ℝ
  stat : DemoStat

/-- One trial, lines 101–155. -/
def demoTrial (c : Chain) (svd : ThinSvdFn) (d : DemoSt) (q q_init : List ℝ) : Option DemoSt := do
  let (_, pos_goal) ← fkPos c q (-1)
  let o ← d.solver.cartToJnt c svd q_init pos_goal d.q_sol
  let stat := d.stat.count o.ret
  let solver ← if o.ret ≠ 0 then do
      let (_, s) ← o.st.displayJac c svd q
      let (_, s) ← s.displayJac c svd o.q_out
      some s
    else some o.st
  let stat := stat.iterations solver
  let stat := if o.ret ≠ -3 then stat.differences solver else stat
  let _ ← fkPos c o.q_out (-1)
  some ⟨solver, o.q_out, stat⟩

/-- The loop over the trials, lines 100–156. -/
def demoLoop (c : Chain) (svd : ThinSvdFn) : List (List ℝ × List ℝ) → DemoSt → Option DemoSt
  | [], d => some d
  | (q, q_init) :: ts, d => do
    let d ← demoTrial c svd d q q_init
    demoLoop c svd ts d

/-- Weights of the demonstration, lines 92–94. -/
def demoL : Fin 6 → ℝ := ![1, 1, 1, 1 / 100, 1 / 100, 1 / 100]

/-- `test_inverseposkin`, line 71, with the constructor's default arguments (chainiksolverpos_lma.hpp:95–101). -/
def testInversePosKin (c : Chain) (svd : ThinSvdFn) (trials : List (List ℝ × List ℝ)) (jac0 : Jac) (sv0 : List ℝ) :
    Option DemoStat := do
  let d ← demoLoop c svd trials
    ⟨LmaState.new c demoL (1 / 10 ^ 5) 500 (1 / 10 ^ 15) jac0 sv0, List.replicate c.nrOfJoints 0, {}⟩
  some d.stat

end KDL
