import Verif.Model.Tree
import Verif.Model.IkPos
import Verif.Model.IkVel
import Mathlib.Order.WithBot

/-!
# Model of the inverse kinematics solvers for trees

`treeiksolvervel_wdls.cpp`, `treeiksolverpos_nr_jl.cpp`, `treeiksolverpos_online.cpp`.  All citations are relative to
`/repo/orocos_kdl/src`.  `none` is undefined behaviour (access outside an array, dereferencing `end()`, a product of
matrices of the wrong sizes).  The singular value decomposition is a parameter, as are the inner solvers of the position
solvers, which are virtual interfaces.
-/

noncomputable section

namespace KDL

open Matrix

/-- `std::map<std::string, T>`: entries in the order of iteration (sorted by key). -/
abbrev SMap (α : Type) := List (String × α)

namespace SMap
variable {α : Type}
/-- `find`; `none` stands for `end()`. -/
def find (m : SMap α) (k : String) : Option α := (m.find? fun e => e.1 == k).map Prod.snd
/-- `insert`: does nothing if the key is there. -/
def insert : SMap α → String → α → SMap α
  | [], k, v => [(k, v)]
  | e :: m, k, v => if k < e.1 then (k, v) :: e :: m else if k = e.1 then e :: m else e :: insert m k v
/-- `it->second = v` for the iterator of key `k`. -/
def set (m : SMap α) (k : String) (v : α) : SMap α := m.map fun e => if e.1 = k then (k, v) else e
/-- The loops of the constructors: insert an entry for each name. -/
def build (ks : List String) (v : String → α) : SMap α := ks.foldl (fun m k => insert m k (v k)) []
end SMap

/-! ## `TreeIkSolverVel_wdls` -/

/-- Members of `TreeIkSolverVel_wdls`, treeiksolvervel_wdls.hpp:81–87 (the others are overwritten before use): `tree`, the
copy of it inside `jnttojacsolver`, `jacobians`, the number of rows of `J`, `Wy`, `Wq`, `lambda`.  The blocks of `J` and `t`
that belong to no entry of `jacobians` keep the zeros of the constructor. -/
structure TreeWdls where
  tree : Tree
  jtree : Tree
  jacobians : SMap Jac
  rows : ℕ
  Wy : EMat
  Wq : EMat
  lambda : ℝ

namespace TreeWdls

/-- Constructor, treeiksolvervel_wdls.cpp:12.  Both trees are copies; `jac0` are the indeterminate contents of the new
Jacobians. -/
def new (t : Tree) (endpoints : List String) (jac0 : String → Jac) : Option TreeWdls := do
  let t1 ← t.copy
  let t2 ← t1.copy
  some ⟨t1, t2, SMap.build endpoints jac0, 6 * endpoints.length, EMat.identity (6 * endpoints.length),
    EMat.identity t1.nrOfJoints, 0⟩

/-- `setWeightJS`, treeiksolvervel_wdls.cpp:36. -/
def setWeightJS (s : TreeWdls) (m : EMat) : TreeWdls := { s with Wq := m }
/-- `setWeightTS`, treeiksolvervel_wdls.cpp:40. -/
def setWeightTS (s : TreeWdls) (m : EMat) : TreeWdls := { s with Wy := m }
/-- `setLambda`, treeiksolvervel_wdls.cpp:44. -/
def setLambda (s : TreeWdls) (l : ℝ) : TreeWdls := { s with lambda := l }

/-- Loop treeiksolvervel_wdls.cpp:61–75: the return code of the first failing `JntToJac` (0 if there is none) and the
blocks put into `J` and `t`. -/
def gather (t : Tree) (q_in : List ℝ) (v_in : SMap Twist) : SMap Jac → Option (Int × List (Jac × Twist))
  | [] => some (0, [])
  | (n, J0) :: rest => do
    let (ret, J) ← t.jacTree q_in J0 n
    if ret < 0 then some (ret, [])
    else do
      let tw ← v_in.find n
      let (ret', l) ← gather t q_in v_in rest
      some (ret', (J, tw) :: l)

/-- The matrix `J`. -/
def bigJ (R n : ℕ) (l : List (Jac × Twist)) : Matrix (Fin R) (Fin n) ℝ := fun r i =>
  match l[r.val / 6]? with
  | some (J, _) => (J.getD i 0).comp ⟨r.val % 6, Nat.mod_lt _ (by norm_num)⟩
  | none => 0
/-- The vector `t`. -/
def bigT (R : ℕ) (l : List (Jac × Twist)) : Fin R → ℝ := fun r =>
  match l[r.val / 6]? with
  | some (_, t) => t.comp ⟨r.val % 6, Nat.mod_lt _ (by norm_num)⟩
  | none => 0

/-- A decomposition routine (`svd_eigen_HH`). -/
abbrev SvdFn := (m n : ℕ) → Matrix (Fin m) (Fin n) ℝ → SvdOut m n

/-- Outcome of `CartToJnt`: returned value and `qdot_out`, or a call in which `0/0` was put into `qdot_out`. -/
inductive Out
  | done (ret : ℝ) (qdot : List ℝ)
  | nonfinite (ret : ℝ)

/-- `tmp(i)`, treeiksolvervel_wdls.cpp:90–98. -/
def tmp {R n : ℕ} (r : SvdOut R n) (lambda : ℝ) (Wyt : Fin R → ℝ) (i : Fin n) : ℝ :=
  (∑ j, if i.val < R then r.U j i * Wyt j else 0) * (r.S i / (r.S i * r.S i + lambda * lambda))

/-- `TreeIkSolverVel_wdls::E_SVD_FAILED`, treeiksolvervel_wdls.hpp:19 (the class is not a `SolverI`, whose code of this name
is another one). -/
def E_SVD_FAILED : Int := -100

open Classical in
/-- `TreeIkSolverVel_wdls::CartToJnt`, treeiksolvervel_wdls.cpp:48.  Weights of the wrong size trip Eigen's assertions
(some non-square ones would only resize the result; they are not followed up, the documentation asks for symmetric
matrices). -/
def cartToJnt (s : TreeWdls) (svd : SvdFn) (q_in : List ℝ) (v_in : SMap Twist) (qdot_out : List ℝ) : Option Out :=
  if ∃ e ∈ v_in, s.jacobians.find e.1 = none then some (.done (-2) qdot_out)
  else if q_in.length ≠ s.tree.nrOfJoints then some (.done (-1) qdot_out)
  else do
    let (ret, l) ← gather s.jtree q_in v_in s.jacobians
    if ret < 0 then some (.done ret qdot_out)
    else if s.Wy.rows ≠ s.rows ∨ s.Wy.cols ≠ s.rows ∨ s.Wq.rows ≠ s.tree.nrOfJoints ∨ s.Wq.cols ≠ s.tree.nrOfJoints then none
    else
      let R := s.rows
      let n := s.tree.nrOfJoints
      let J := bigJ R n l
      let t := bigT R l
      let Wy : Matrix (Fin R) (Fin R) ℝ := fun i j => s.Wy.get i j
      let Wq : Matrix (Fin n) (Fin n) ℝ := fun i j => s.Wq.get i j
      let r := svd R n (Wy * (J * Wq))
      if r.code < 0 then some (.done E_SVD_FAILED qdot_out)
      else
        let Wyt := Wy *ᵥ t
        let ret := Real.sqrt (∑ i, Wyt i * Wyt i)
        if ∃ i, r.S i * r.S i + s.lambda * s.lambda = 0 then some (.nonfinite ret)
        else some (.done ret (List.ofFn ((Wq * r.V) *ᵥ tmp r s.lambda Wyt)))

end TreeWdls

/-! ## `TreeIkSolverPos_NR_JL` -/

/-- A forward position solver for trees (treefksolver.hpp:56) as seen by the loops: iteration number (so that the solver may
carry state), `q_in`, segment name and `p_out` before the call to return code and `p_out`. -/
abbrev TreePosFn := ℕ → List ℝ → String → Frame → Option (Int × Frame)
/-- An inverse velocity solver for trees (treeiksolver.hpp:67): iteration number, `q_in`, `v_in` and `qdot_out` before the
call to the returned value and `qdot_out`.  Values that are not finite count as `none`. -/
abbrev TreeVelFn := ℕ → List ℝ → SMap Twist → List ℝ → Option (ℝ × List ℝ)

/-- What a call leaves behind. -/
structure TreeIkOut (σ : Type) where
  ret : ℝ
  q_out : List ℝ
  st : σ

/-- The loops over the endpoints, treeiksolverpos_nr_jl.cpp:52–59 and treeiksolverpos_online.cpp:69–83; `lim` is what is
done to the twist before it is stored.  The return code of the forward solver is not looked at. -/
def aim (fk : TreePosFn) (lim : Twist → Twist) (i : ℕ) (q : List ℝ) :
    SMap Frame → SMap Frame → SMap Twist → Option (SMap Frame × SMap Twist)
  | [], fr, tw => some (fr, tw)
  | (n, goal) :: rest, fr, tw => do
    let f0 ← fr.find n
    let _ ← tw.find n
    let (_, f) ← fk i q n f0
    aim fk lim i q rest (fr.set n f) (tw.set n (lim (Frame.diff f goal 1)))

open Classical in
/-- The loops `for (j = 0; j < q_min.rows(); j++)`, treeiksolverpos_nr_jl.cpp:65–70 and treeiksolverpos_online.cpp:100–106. -/
def clampAll : List ℝ → List ℝ → List ℝ → Option (List ℝ)
  | q, [], _ => some q
  | [], _ :: _, _ => none
  | x :: q, lo :: los, his => do
    let y ← if x < lo then some lo else his.head?.map fun hi => if x > hi then hi else x
    let r ← clampAll q los his.tail
    some (y :: r)

/-- Members of `TreeIkSolverPos_NR_JL`, treeiksolverpos_nr_jl.hpp:68–79. -/
structure TreeNrJl where
  q_min : List ℝ
  q_max : List ℝ
  delta_q : List ℝ
  frames : SMap Frame
  delta_twists : SMap Twist
  maxiter : ℕ
  eps : ℝ

namespace TreeNrJl

/-- Constructor, treeiksolverpos_nr_jl.cpp:27; `nj` is the number of joints of the tree. -/
def new (nj : ℕ) (endpoints : List String) (q_min q_max : List ℝ) (maxiter : ℕ) (eps : ℝ) : TreeNrJl :=
  ⟨q_min, q_max, List.replicate nj 0, SMap.build endpoints fun _ => 1, SMap.build endpoints fun _ => 0, maxiter, eps⟩

open Classical in
/-- Loop of `CartToJnt`, treeiksolverpos_nr_jl.cpp:51–75: remaining iterations, iteration number.  After the loop
`k <= maxiter` is false, so the value is −3. -/
def loop (fk : TreePosFn) (ik : TreeVelFn) (p_in : SMap Frame) : ℕ → ℕ → TreeNrJl → List ℝ → Option (TreeIkOut TreeNrJl)
  | 0, _, s, q => some ⟨-3, q, s⟩
  | n + 1, i, s, q => do
    let (fr, tw) ← aim fk id i q p_in s.frames s.delta_twists
    let (res, dq) ← ik i q tw s.delta_q
    let s := { s with frames := fr, delta_twists := tw, delta_q := dq }
    if res < s.eps then some ⟨res, q, s⟩
    else do
      let q' ← jntAdd q dq
      let q'' ← clampAll q' s.q_min s.q_max
      loop fk ik p_in n (i + 1) s q''

open Classical in
/-- `TreeIkSolverPos_NR_JL::CartToJnt`, treeiksolverpos_nr_jl.cpp:42. -/
def cartToJnt (s : TreeNrJl) (fk : TreePosFn) (ik : TreeVelFn) (q_init : List ℝ) (p_in : SMap Frame) :
    Option (TreeIkOut TreeNrJl) :=
  if ∃ e ∈ p_in, s.frames.find e.1 = none then some ⟨-2, q_init, s⟩
  else loop fk ik p_in s.maxiter 0 s q_init

end TreeNrJl

/-! ## `TreeIkSolverPos_Online` -/

/-- Members of `TreeIkSolverPos_Online`, treeiksolverpos_online.hpp:92–102. -/
structure TreeOnline where
  q_min : List ℝ
  q_max : List ℝ
  q_dot_max : List ℝ
  x_dot_trans_max : ℝ
  x_dot_rot_max : ℝ
  q_dot : List ℝ
  frames : SMap Frame
  delta_twists : SMap Twist

open Classical in
/-- `enforceCartVelLimits`, treeiksolverpos_online.cpp:150. -/
def enforceCart (trans_max rot_max : ℝ) (t : Twist) : Twist :=
  let x_dot_trans := Real.sqrt (t.vel.x ^ 2 + t.vel.y ^ 2 + t.vel.z ^ 2)
  let x_dot_rot := Real.sqrt (t.rot.x ^ 2 + t.rot.y ^ 2 + t.rot.z ^ 2)
  if x_dot_trans > trans_max ∨ x_dot_rot > rot_max then
    if x_dot_trans > x_dot_rot then ⟨(trans_max / x_dot_trans) • t.vel, (trans_max / x_dot_trans) • t.rot⟩
    else if x_dot_rot > x_dot_trans then ⟨(rot_max / x_dot_rot) • t.vel, (rot_max / x_dot_rot) • t.rot⟩
    else t
  else t

open Classical in
/-- A positive number divided by `m`: `+∞` for `m = 0`. -/
def posDiv (x m : ℝ) : WithTop ℝ := if m = 0 then ⊤ else ((x / m : ℝ) : WithTop ℝ)

open Classical in
/-- Loop of `enforceJointVelLimits`, treeiksolverpos_online.cpp:117–140: `max_exceeded` and `rel_os_max`. -/
def overshoot : List ℝ → List ℝ → Bool → WithTop ℝ → Option (Bool × WithTop ℝ)
  | [], _, e, r => some (e, r)
  | _ :: _, [], _, _ => none
  | x :: xs, m :: ms, e, r =>
    if x > m then overshoot xs ms true (if posDiv (x - m) m > r then posDiv (x - m) m else r)
    else if x < -m then overshoot xs ms true (if posDiv (-x - m) m > r then posDiv (-x - m) m else r)
    else overshoot xs ms e r

/-- `1.0 / (1.0 + rel_os_max)`; the reciprocal of `+∞` is 0. -/
def velScale : WithTop ℝ → ℝ
  | ⊤ => 0
  | (r : ℝ) => 1 / (1 + r)

/-- `enforceJointVelLimits`, treeiksolverpos_online.cpp:112. -/
def enforceJoint (q_dot q_dot_max : List ℝ) : Option (List ℝ) := do
  let (e, r) ← overshoot q_dot q_dot_max false 0
  some (if e then q_dot.map fun x => x * velScale r else q_dot)

namespace TreeOnline

/-- Constructor, treeiksolverpos_online.cpp:29; `nj` is `nr_of_jnts` converted to `unsigned int`. -/
def new (nj : ℕ) (endpoints : List String) (q_min q_max q_dot_max : List ℝ) (tmax rmax : ℝ) : TreeOnline :=
  ⟨q_min, q_max, q_dot_max, tmax, rmax, List.replicate nj 0, SMap.build endpoints fun _ => 1,
    SMap.build endpoints fun _ => 0⟩

open Classical in
/-- `TreeIkSolverPos_Online::CartToJnt`, treeiksolverpos_online.cpp:60. -/
def cartToJnt (s : TreeOnline) (fk : TreePosFn) (ik : TreeVelFn) (q_in : List ℝ) (p_in : SMap Frame) :
    Option (TreeIkOut TreeOnline) :=
  if ∃ e ∈ p_in, s.frames.find e.1 = none then some ⟨-2, q_in, s⟩
  else do
    let (fr, tw) ← aim fk (enforceCart s.x_dot_trans_max s.x_dot_rot_max) 0 q_in p_in s.frames s.delta_twists
    let (res, qd) ← ik 0 q_in tw s.q_dot
    let s := { s with frames := fr, delta_twists := tw, q_dot := qd }
    if res < 0 then some ⟨res, q_in, s⟩
    else if q_in.length ≠ s.q_min.length ∨ q_in.length ≠ s.q_max.length ∨ q_in.length ≠ s.q_dot_max.length then
      some ⟨-1, q_in, s⟩
    else do
      let qd' ← enforceJoint s.q_dot s.q_dot_max
      let q' ← jntAdd q_in qd'
      let q'' ← clampAll q' s.q_min s.q_max
      some ⟨res, q'', { s with q_dot := qd' }⟩

end TreeOnline
end KDL
