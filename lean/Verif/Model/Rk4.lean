import Verif.Model.Dynamics

/-! `ChainFdSolver_RNE::RK4Integrator`, chainfdsolver_recursive_newton_euler.cpp:95–136.

The forward dynamics call `fdsolver.CartToJnt(q, q_dot, torques, f_ext, q_dotdot)` is a function of `q`, `q_dot` and the
previous contents of `q_dotdot`, one for each of the four calls because the work arrays of the solver
change; torques and wrenches are the same in all four calls.  The parameter `t` is never read or written.  The arrays are different objects. -/

namespace KDL

/-- The loop `for (i=0; i<nj; ++i) a(i) = f(i)`; the loops of the routine read and write the arrays at the same index `i`
only. -/
def fillTo (nj : ℕ) (a : List ℝ) (f : ℕ → ℝ) : List ℝ := (List.range nj).map f ++ a.drop nj

/-- The arrays of the routine, chainfdsolver_recursive_newton_euler.cpp:95–98. -/
structure Rk4 where
  q : List ℝ
  qd : List ℝ
  qdd : List ℝ
  dq : List ℝ
  dqd : List ℝ
  qt : List ℝ
  qdt : List ℝ

/-- Outcome of a step. -/
inductive Rk4Result
  | ret (s : Rk4)
  /-- a call of the solver left NaNs in `q_dotdot` -/
  | nan

/-- All arrays have an element with index `nj-1`. -/
def Rk4.Big (nj : ℕ) (s : Rk4) : Prop :=
  nj ≤ s.q.length ∧ nj ≤ s.qd.length ∧ nj ≤ s.qdd.length ∧ nj ≤ s.dq.length ∧ nj ≤ s.dqd.length ∧ nj ≤ s.qt.length ∧ nj ≤ s.qdt.length

open Classical in
/-- A call of the solver (whose return value is ignored) and the loop after it, which indexes all arrays below `nj`. -/
noncomputable def Rk4.stage (fd : List ℝ → List ℝ → List ℝ → Option FdResult) (nj : ℕ) (first : Bool) (loop : Rk4 → Rk4) (s : Rk4) :
    Option Rk4Result := do
  match ← (if first then fd s.q s.qd s.qdd else fd s.qt s.qdt s.qdd) with
  | .nan => some .nan
  | .ret _ qdd =>
    let s := { s with qdd := qdd }
    if s.Big nj then some (.ret (loop s)) else none

/-- The first loop, :101–107. -/
noncomputable def Rk4.loop1 (nj : ℕ) (dt : ℝ) (s : Rk4) : Rk4 := { s with
  qt := fillTo nj s.qt fun i => s.q.getD i 0 + s.qd.getD i 0 * dt / 2
  qdt := fillTo nj s.qdt fun i => s.qd.getD i 0 + s.qdd.getD i 0 * dt / 2
  dq := fillTo nj s.dq fun i => s.qd.getD i 0
  dqd := fillTo nj s.dqd fun i => s.qdd.getD i 0 }

/-- The second loop, :109–115: `q_temp(i)` is set with the old `q_dot_temp(i)`, the increment of `dq` with the new one. -/
noncomputable def Rk4.loop2 (nj : ℕ) (dt : ℝ) (s : Rk4) : Rk4 := { s with
  qt := fillTo nj s.qt fun i => s.q.getD i 0 + s.qdt.getD i 0 * dt / 2
  qdt := fillTo nj s.qdt fun i => s.qd.getD i 0 + s.qdd.getD i 0 * dt / 2
  dq := fillTo nj s.dq fun i => s.dq.getD i 0 + 2 * (s.qd.getD i 0 + s.qdd.getD i 0 * dt / 2)
  dqd := fillTo nj s.dqd fun i => s.dqd.getD i 0 + 2 * s.qdd.getD i 0 }

/-- The third loop, :117–123. -/
noncomputable def Rk4.loop3 (nj : ℕ) (dt : ℝ) (s : Rk4) : Rk4 := { s with
  qt := fillTo nj s.qt fun i => s.q.getD i 0 + s.qdt.getD i 0 * dt
  qdt := fillTo nj s.qdt fun i => s.qd.getD i 0 + s.qdd.getD i 0 * dt
  dq := fillTo nj s.dq fun i => s.dq.getD i 0 + 2 * (s.qd.getD i 0 + s.qdd.getD i 0 * dt)
  dqd := fillTo nj s.dqd fun i => s.dqd.getD i 0 + 2 * s.qdd.getD i 0 }

/-- The last two loops, :125–134. -/
noncomputable def Rk4.loop4 (nj : ℕ) (dt : ℝ) (s : Rk4) : Rk4 :=
  let dq := fillTo nj s.dq fun i => (s.dq.getD i 0 + s.qdt.getD i 0) * dt / 6
  let dqd := fillTo nj s.dqd fun i => (s.dqd.getD i 0 + s.qdd.getD i 0) * dt / 6
  { s with
    dq := dq
    dqd := dqd
    q := fillTo nj s.q fun i => s.q.getD i 0 + dq.getD i 0
    qd := fillTo nj s.qd fun i => s.qd.getD i 0 + dqd.getD i 0 }

/-- Go on unless there are NaNs. -/
def Rk4Result.andThen (r : Rk4Result) (k : Rk4 → Option Rk4Result) : Option Rk4Result :=
  match r with
  | .ret s => k s
  | .nan => some .nan

/-- `RK4Integrator`, chainfdsolver_recursive_newton_euler.cpp:95.  `none` = undefined behaviour. -/
noncomputable def rk4Integrator (fd : ℕ → List ℝ → List ℝ → List ℝ → Option FdResult) (nj : ℕ) (dt : ℝ) (s : Rk4) : Option Rk4Result := do
  let r ← s.stage (fd 0) nj true (Rk4.loop1 nj dt)
  let r ← r.andThen fun s => s.stage (fd 1) nj false (Rk4.loop2 nj dt)
  let r ← r.andThen fun s => s.stage (fd 2) nj false (Rk4.loop3 nj dt)
  r.andThen fun s => s.stage (fd 3) nj false (Rk4.loop4 nj dt)

end KDL
