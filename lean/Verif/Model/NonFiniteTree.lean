import Verif.Model.NonFinite
import Verif.Model.TreeIk

/-!
# The position solvers for trees with infinities and NaN

The numbers are those of `Verif/Model/NonFinite.lean`; limits and tolerances are finite.  The inverse velocity solver is an
arbitrary function of the joint positions and the call number; what it is given is left out.

Citations are relative to `/repo/orocos_kdl/src`.
-/

noncomputable section
namespace KDL
open Dbl

open Classical in
/-- `enforceCartVelLimits`, treeiksolverpos_online.cpp:150; `pow(x, 2)` is `x*x`. -/
def enforceCartD (trans_max rot_max : ℝ) (t : DTwist) : DTwist :=
  let x_dot_trans := Dbl.sqrt (t.vel.x * t.vel.x + t.vel.y * t.vel.y + t.vel.z * t.vel.z)
  let x_dot_rot := Dbl.sqrt (t.rot.x * t.rot.x + t.rot.y * t.rot.y + t.rot.z * t.rot.z)
  if fin trans_max < x_dot_trans ∨ fin rot_max < x_dot_rot then
    if x_dot_rot < x_dot_trans then
      ⟨t.vel.scale (fin trans_max / x_dot_trans), t.rot.scale (fin trans_max / x_dot_trans)⟩
    else if x_dot_trans < x_dot_rot then
      ⟨t.vel.scale (fin rot_max / x_dot_rot), t.rot.scale (fin rot_max / x_dot_rot)⟩
    else t
  else t

open Classical in
/-- Loop of `enforceJointVelLimits`, treeiksolverpos_online.cpp:117–140: `max_exceeded` and `rel_os_max`. -/
def overshootD : List Dbl → List ℝ → Bool → Dbl → Option (Bool × Dbl)
  | [], _, e, r => some (e, r)
  | _ :: _, [], _, _ => none
  | x :: xs, m :: ms, e, r =>
    if fin m < x then
      let rel := (x - fin m) / fin m
      overshootD xs ms true (if r < rel then rel else r)
    else if x < -fin m then
      let rel := (-x - fin m) / fin m
      overshootD xs ms true (if r < rel then rel else r)
    else overshootD xs ms e r

/-- `enforceJointVelLimits`, treeiksolverpos_online.cpp:112. -/
def enforceJointD (q_dot : List Dbl) (q_dot_max : List ℝ) : Option (List Dbl) := do
  let (e, r) ← overshootD q_dot q_dot_max false (fin 0)
  some (if e then q_dot.map fun x => x * (fin 1 / (fin 1 + r)) else q_dot)

open Classical in
/-- The loops over the joint limits, treeiksolverpos_nr_jl.cpp:65–70 and treeiksolverpos_online.cpp:100–106. -/
def clampAllD : List Dbl → List ℝ → List ℝ → Option (List Dbl)
  | q, [], _ => some q
  | [], _ :: _, _ => none
  | x :: q, lo :: los, his => do
    let y ← if x < fin lo then some (fin lo) else his.head?.map fun hi => if fin hi < x then fin hi else x
    let r ← clampAllD q los his.tail
    some (y :: r)

/-- `TreeIkSolverPos_Online::CartToJnt`, treeiksolverpos_online.cpp:85–108, from the result `res`, `qd` of the inverse
velocity solver: returned value and `q_out`. -/
def onlineStepD (q_min q_max q_dot_max : List ℝ) (res : Dbl) (qd q_in : List Dbl) : Option (Dbl × List Dbl) :=
  open Classical in
  if res < fin 0 then some (res, q_in)
  else if q_in.length ≠ q_min.length ∨ q_in.length ≠ q_max.length ∨ q_in.length ≠ q_dot_max.length then some (fin (-1), q_in)
  else do
    let qd' ← enforceJointD qd q_dot_max
    let q' ← jntAddD q_in qd'
    let q'' ← clampAllD q' q_min q_max
    some (res, q'')

open Classical in
/-- Loop of `TreeIkSolverPos_NR_JL::CartToJnt`, treeiksolverpos_nr_jl.cpp:51–75, with known endpoints. -/
def treeJlLoopD (q_min q_max : List ℝ) (eps : ℝ) (ik : ℕ → List Dbl → Dbl × List Dbl) :
    ℕ → ℕ → List Dbl → Option (Dbl × List Dbl)
  | 0, _, q => some (fin (-3), q)
  | n + 1, i, q =>
    let (res, dq) := ik i q
    if res < fin eps then some (res, q)
    else do
      let q' ← jntAddD q dq
      let q'' ← clampAllD q' q_min q_max
      treeJlLoopD q_min q_max eps ik n (i + 1) q''

end KDL
