import Verif.Model.NonFinite
import Verif.Model.Lma

/-!
# The Levenberg-Marquardt solver with infinities and NaN

`Verif/Model/Lma.lean` has the solver on finite numbers.  Here the numbers are those of `Verif/Model/NonFinite.lean`.  What the
decomposition and the products with its factors give (`diffq`, `grad`, the largest absolute value of `diffq`) is a parameter:
a sequence of arbitrary values, finite or not, one for each iteration.  Eigen leaves the largest element of a vector with NaN
unspecified, so it is not tied to `diffq`.  Diagnostic members are left out.

Citations are relative to `/repo/orocos_kdl/src`.
-/

noncomputable section
namespace KDL
open Dbl

/-- Values computed in one iteration, chainiksolverpos_lma.cpp:229–251. -/
structure LmaInc where
  diffq : List Dbl
  grad : List Dbl
  dnorm : Dbl

/-- `L.asDiagonal()*` a six-vector, chainiksolverpos_lma.cpp:208, 275. -/
def DTwist.weigh (L : Fin 6 → ℝ) (t : DTwist) : DTwist :=
  ⟨⟨fin (L 0) * t.vel.x, fin (L 1) * t.vel.y, fin (L 2) * t.vel.z⟩, ⟨fin (L 3) * t.rot.x, fin (L 4) * t.rot.y, fin (L 5) * t.rot.z⟩⟩
/-- `norm()` of a six-vector, chainiksolverpos_lma.cpp:209, 276. -/
def DTwist.norm6 (t : DTwist) : Dbl :=
  Dbl.sqrt (t.vel.x * t.vel.x + t.vel.y * t.vel.y + t.vel.z * t.vel.z + t.rot.x * t.rot.x + t.rot.y * t.rot.y + t.rot.z * t.rot.z)

/-- `diffq.transpose()*(lambda*diffq + grad)`, chainiksolverpos_lma.cpp:278.  Vectors of unequal size: undefined. -/
def lmaDenomD (lambda : Dbl) (d g : List Dbl) : Option Dbl :=
  if d.length = g.length then some ((List.zipWith (fun x y => x * (lambda * x + y)) d g).foldl (fun acc t => acc + t) (fin 0))
  else none
/-- `grad.transpose()*grad`, chainiksolverpos_lma.cpp:265. -/
def dotSelfD (g : List Dbl) : Dbl := g.foldl (fun acc t => acc + t * t) (fin 0)

open Classical in
/-- `max(1/3.0, 1-tmp*tmp*tmp)`, chainiksolverpos_lma.cpp:296–297, with `max` of utilities/utility.h:204. -/
def lmaFactorD (rho : Dbl) : Dbl :=
  let tmp := fin 2 * rho - fin 1
  let x := fin 1 - tmp * tmp * tmp
  if x < fin (1 / 3) then fin (1 / 3) else x

/-- The weighted distance to the goal, chainiksolverpos_lma.cpp:206–209 and 273–276; `compute_fwdpos` (141–156) visits all
segments. -/
def lmaDistD (c : Chain) (L : Fin 6 → ℝ) (goal : DFrame) (q : List Dbl) : Option Dbl := do
  let head ← fkLoopD q c.segments 0 (1 : Frame).toD
  some ((DFrame.diff head goal).weigh L).norm6

open Classical in
/-- The loop, chainiksolverpos_lma.cpp:227–322, with remaining iterations, `i`, whether `svd` was ever computed, `q`,
`delta_pos_norm`, `lambda`, `v`.  Result: code and `q_out`. -/
def lmaLoopD (c : Chain) (inc : ℕ → LmaInc) (goal : DFrame) (L : Fin 6 → ℝ) (eps epsj : ℝ) :
    ℕ → ℕ → Bool → List Dbl → Dbl → Dbl → Dbl → Option (Int × List Dbl)
  | 0, _, sv, q, _, _, _ => if sv then some (E_MAX_ITERATIONS_EXCEEDED, q) else none
  | n + 1, i, _, q, norm, lambda, v =>
    let s := inc i
    if s.dnorm < fin epsj then some (E_INCREMENT_JOINTS_TOO_SMALL, q)
    else if dotSelfD s.grad < fin (epsj * epsj) then some (E_GRADIENT_JOINTS_TOO_SMALL, q)
    else do
      let q_new ← jntAddD q s.diffq
      let norm_new ← lmaDistD c L goal q_new
      let den ← lmaDenomD lambda s.diffq s.grad
      let rho := (norm * norm - norm_new * norm_new) / den
      if fin 0 < rho then
        if norm_new < fin eps then some (E_NOERROR, q_new)
        else lmaLoopD c inc goal L eps epsj n (i + 1) true q_new norm_new (lambda * lmaFactorD rho) (fin 2)
      else lmaLoopD c inc goal L eps epsj n (i + 1) true q norm (lambda * v) (fin 2 * v)

open Classical in
/-- `ChainIkSolverPos_LMA::CartToJnt`, chainiksolverpos_lma.cpp:187, after the tests of the sizes; `sv` tells whether `svd` was
ever computed. -/
def lmaD (c : Chain) (inc : ℕ → LmaInc) (L : Fin 6 → ℝ) (eps epsj : ℝ) (maxiter : ℕ) (sv : Bool) (q_init : List Dbl)
    (goal : DFrame) : Option (Int × List Dbl) := do
  let norm ← lmaDistD c L goal q_init
  if norm < fin eps then some (E_NOERROR, q_init)
  else lmaLoopD c inc goal L eps epsj maxiter 0 sv q_init norm (fin 10) (fin 2)

end KDL
