import Verif.Model.IkPos
import Verif.Model.IkVel

/-!
# Model of the Levenberg-Marquardt position solver `chainiksolverpos_lma.cpp`

Citations are relative to `/repo/orocos_kdl/src`.  The decomposition `Eigen::JacobiSVD` (thin `U` and `V`) is a parameter.
The members `A`, `ldlt`, `tmp`, `original_Aii`, `diffq`, `q_new`, `grad` are written before they are read within a call
and are not kept; neither is the member `q`.  `display_information` (output only) is left out.
-/

noncomputable section
namespace KDL
open Matrix

/-- `E_GRADIENT_JOINTS_TOO_SMALL`, chainiksolverpos_lma.hpp:72. -/
def E_GRADIENT_JOINTS_TOO_SMALL : Int := -100
/-- `E_INCREMENT_JOINTS_TOO_SMALL`, chainiksolverpos_lma.hpp:73. -/
def E_INCREMENT_JOINTS_TOO_SMALL : Int := -101

/-- Result of `JacobiSVD<MatrixXq>(6, n, ComputeThinU | ComputeThinV)`. -/
structure ThinSvd (n : ℕ) where
  U : Matrix (Fin 6) (Fin (min 6 n)) ℝ
  S : Fin (min 6 n) → ℝ
  V : Matrix (Fin n) (Fin (min 6 n)) ℝ

/-- `T_base_head`, `T_base_jointroot`, `T_base_jointtip`, chainiksolverpos_lma.hpp:210, 226, 227. -/
structure LmaFk where
  head : Frame
  root : List Frame
  tip : List Frame

/-- Loop of `compute_fwdpos`, chainiksolverpos_lma.cpp:145–155.  Access outside a vector is undefined behaviour. -/
def lmaFwdLoop (q : List ℝ) : List Segment → ℕ → LmaFk → Option LmaFk
  | [], _, w => some w
  | s :: ss, j, w =>
    if s.moving then do
      let qj ← q[j]?
      let head := w.head * s.pose qj
      if j < w.root.length ∧ j < w.tip.length then
        lmaFwdLoop q ss (j + 1) ⟨head, w.root.set j w.head, w.tip.set j head⟩
      else none
    else lmaFwdLoop q ss j { w with head := w.head * s.pose 0 }

/-- `compute_fwdpos`, chainiksolverpos_lma.cpp:141. -/
def lmaFwdpos (c : Chain) (q : List ℝ) (w : LmaFk) : Option LmaFk := lmaFwdLoop q c.segments 0 { w with head := 1 }

/-- Loop of `compute_jacobian`, chainiksolverpos_lma.cpp:161–174. -/
def lmaJacLoop (q : List ℝ) (w : LmaFk) : List Segment → ℕ → Jac → Option Jac
  | [], _, J => some J
  | s :: ss, j, J =>
    if s.moving then do
      let qj ← q[j]?
      let r ← w.root[j]?
      let t ← w.tip[j]?
      let J' ← J.setColumn j ((r.M * s.twist qj 1).refPoint (w.head.p - t.p))
      lmaJacLoop q w ss (j + 1) J'
    else lmaJacLoop q w ss j J

/-- `compute_jacobian`, chainiksolverpos_lma.cpp:158. -/
def lmaJacobian (c : Chain) (q : List ℝ) (w : LmaFk) (J : Jac) : Option Jac := lmaJacLoop q w c.segments 0 J

/-- `L.asDiagonal()*` a six-vector. -/
def Twist.weigh (L : Fin 6 → ℝ) (t : Twist) : Twist :=
  ⟨⟨L 0 * t.vel.x, L 1 * t.vel.y, L 2 * t.vel.z⟩, ⟨L 3 * t.rot.x, L 4 * t.rot.y, L 5 * t.rot.z⟩⟩
/-- `norm()` of a six-vector. -/
def Twist.norm6 (t : Twist) : ℝ := Real.sqrt (t.vel.dot t.vel + t.rot.dot t.rot)
/-- `norm()` of `topRows(3)` or `bottomRows(3)`. -/
def Vec.norm3 (v : Vec) : ℝ := Real.sqrt (v.dot v)
/-- `lpNorm<Eigen::Infinity>()`. -/
def infNorm (l : List ℝ) : ℝ := l.foldl (fun m x => max m |x|) 0

/-- Members of `ChainIkSolverPos_LMA` (chainiksolverpos_lma.hpp:161–240).  `sv` are the singular values held by the member
`svd`; `none` before its first use (reading them is undefined behaviour). -/
structure LmaState where
  nj : ℕ
  maxiter : ℕ
  eps : ℝ
  eps_joints : ℝ
  L : Fin 6 → ℝ
  fk : LmaFk
  jac : Jac
  sv : Option (List ℝ)
  lastNrOfIter : ℕ
  lastDifference : ℝ
  lastTransDiff : ℝ
  lastRotDiff : ℝ
  lastSV : List ℝ
  error : Int

namespace LmaState

/-- Constructor with weights, chainiksolverpos_lma.cpp:50.  `int _maxiter` becomes `unsigned int`.  `jac0` and `sv0` are the
indeterminate contents of the freshly allocated `jac` and `lastSV`. -/
def new (c : Chain) (l : Fin 6 → ℝ) (eps : ℝ) (maxiter : ℤ) (eps_joints : ℝ) (jac0 : Jac) (sv0 : List ℝ) : LmaState :=
  ⟨c.nrOfJoints, (maxiter % 2 ^ 32).toNat, eps, eps_joints, l,
    ⟨1, List.replicate c.nrOfJoints 1, List.replicate c.nrOfJoints 1⟩, jac0, none, 0, 0, 0, 0, sv0, E_NOERROR⟩

/-- Default weights, chainiksolverpos_lma.cpp:114–119. -/
def defaultL : Fin 6 → ℝ := ![1, 1, 1, 1 / 100, 1 / 100, 1 / 100]
/-- Constructor with default weights, chainiksolverpos_lma.cpp:84. -/
def newDefault (c : Chain) (eps : ℝ) (maxiter : ℤ) (eps_joints : ℝ) (jac0 : Jac) (sv0 : List ℝ) : LmaState :=
  new c defaultL eps maxiter eps_joints jac0 sv0

/-- `updateInternalDataStructures`, chainiksolverpos_lma.cpp:122.  `conservativeResize` and `vector::resize` keep what is
there; `jacNew` and `svNew` are the indeterminate new entries. -/
def update (s : LmaState) (c : Chain) (jacNew : Jac) (svNew : List ℝ) : LmaState :=
  let n := c.nrOfJoints
  { s with
    nj := n
    lastSV := (s.lastSV ++ svNew).take (min 6 n)
    jac := (s.jac ++ jacNew).take n
    fk := ⟨s.fk.head, s.fk.root.take n ++ List.replicate (n - s.fk.root.length) 1,
      s.fk.tip.take n ++ List.replicate (n - s.fk.tip.length) 1⟩
    sv := none }

end LmaState

/-- `diffq`, chainiksolverpos_lma.cpp:230–237. -/
def lmaStep {n : ℕ} (r : ThinSvd n) (lambda : ℝ) (delta : Twist) (i : Fin n) : ℝ :=
  ∑ k, r.V i k * (r.S k / (r.S k * r.S k + lambda) * ∑ j, r.U j k * delta.comp j)

/-- `grad = jac.transpose()*delta_pos`, chainiksolverpos_lma.cpp:238. -/
def lmaGrad {n : ℕ} (J : Matrix (Fin 6) (Fin n) ℝ) (delta : Twist) (i : Fin n) : ℝ := ∑ j, J j i * delta.comp j

/-- `rho`, chainiksolverpos_lma.cpp:278–279, as numerator and denominator. -/
def lmaRho {n : ℕ} (lambda : ℝ) (diffq grad : Fin n → ℝ) (old new : ℝ) : ℝ × ℝ :=
  (old * old - new * new, ∑ i, diffq i * (lambda * diffq i + grad i))

/-- `rho > 0` in IEEE arithmetic: over a zero denominator the quotient is infinite or NaN. -/
def rhoPos (r : ℝ × ℝ) : Prop := if r.2 = 0 then r.1 > 0 else r.1 / r.2 > 0
/-- `max(1/3.0, 1-tmp*tmp*tmp)` with `tmp = 2*rho-1`, chainiksolverpos_lma.cpp:296–297; `rho` is `+∞` over a zero
denominator. -/
def lmaFactor (r : ℝ × ℝ) : ℝ :=
  if r.2 = 0 then 1 / 3 else max (1 / 3) (1 - (2 * (r.1 / r.2) - 1) * (2 * (r.1 / r.2) - 1) * (2 * (r.1 / r.2) - 1))

/-- Local variables of `CartToJnt`: `q`, `delta_pos`, `delta_pos_norm`, `lambda`, `v`. -/
structure LmaIt where
  q : List ℝ
  delta : Twist
  norm : ℝ
  lambda : ℝ
  v : ℝ

/-- A decomposition routine for matrices with six rows. -/
abbrev ThinSvdFn := (n : ℕ) → Matrix (Fin 6) (Fin n) ℝ → ThinSvd n

/-- What a call leaves behind: return code, `q_out`, the solver object. -/
structure LmaOut where
  ret : Int
  q_out : List ℝ
  st : LmaState

/-- `lastTransDiff`, `lastRotDiff` from `delta_pos`. -/
def LmaState.setDiff (s : LmaState) (t : Twist) : LmaState :=
  { s with lastTransDiff := t.vel.norm3, lastRotDiff := t.rot.norm3 }

open Classical in
/-- The loop, chainiksolverpos_lma.cpp:227–313.  The first number counts the remaining iterations, the second is `i`. -/
def lmaLoop (c : Chain) (svd : ThinSvdFn) (goal : Frame) : ℕ → ℕ → LmaState → LmaIt → Option LmaOut
  | 0, _, s, it => do
    let sv ← s.sv
    some ⟨E_MAX_ITERATIONS_EXCEEDED, it.q, { s.setDiff it.delta with
      lastDifference := it.norm, lastSV := sv, lastNrOfIter := s.maxiter, error := E_MAX_ITERATIONS_EXCEEDED }⟩
  | fuel + 1, i, s, it => do
    let r := svd s.nj (jacMat s.nj s.jac)
    let sv := List.ofFn r.S
    let s := { s with sv := some sv }
    let diffq := lmaStep r it.lambda it.delta
    let grad := lmaGrad (jacMat s.nj s.jac) it.delta
    if infNorm (List.ofFn diffq) < s.eps_joints then do
      let w ← lmaFwdpos c it.q s.fk
      some ⟨E_INCREMENT_JOINTS_TOO_SMALL, it.q, { s.setDiff (Frame.diff w.head goal 1) with
        fk := w, lastDifference := it.norm, lastNrOfIter := i, lastSV := sv, error := E_INCREMENT_JOINTS_TOO_SMALL }⟩
    else if ∑ k, grad k * grad k < s.eps_joints * s.eps_joints then do
      let w ← lmaFwdpos c it.q s.fk
      some ⟨E_GRADIENT_JOINTS_TOO_SMALL, it.q, { s.setDiff (Frame.diff w.head goal 1) with
        fk := w, lastDifference := it.norm, lastNrOfIter := i, lastSV := sv, error := E_GRADIENT_JOINTS_TOO_SMALL }⟩
    else do
      let q_new ← jntAdd it.q (List.ofFn diffq)
      let w ← lmaFwdpos c q_new s.fk
      let s := { s with fk := w }
      let delta_new := (Frame.diff w.head goal 1).weigh s.L
      let norm_new := delta_new.norm6
      let rho := lmaRho it.lambda diffq grad it.norm norm_new
      if rhoPos rho then
        if norm_new < s.eps then
          some ⟨E_NOERROR, q_new, { s.setDiff (Frame.diff w.head goal 1) with
            lastDifference := norm_new, lastSV := sv, lastNrOfIter := i, error := E_NOERROR }⟩
        else do
          let J ← lmaJacobian c q_new w s.jac
          lmaLoop c svd goal fuel (i + 1) { s with jac := J.map (Twist.weigh s.L) }
            ⟨q_new, delta_new, norm_new, it.lambda * lmaFactor rho, 2⟩
      else lmaLoop c svd goal fuel (i + 1) s { it with lambda := it.lambda * it.v, v := 2 * it.v }

open Classical in
/-- `ChainIkSolverPos_LMA::CartToJnt`, chainiksolverpos_lma.cpp:187. -/
def LmaState.cartToJnt (s : LmaState) (c : Chain) (svd : ThinSvdFn) (q_init : List ℝ) (goal : Frame) (q_out : List ℝ) :
    Option LmaOut :=
  if s.nj ≠ c.nrOfJoints then some ⟨E_NOT_UP_TO_DATE, q_out, { s with error := E_NOT_UP_TO_DATE }⟩
  else if s.nj ≠ q_init.length ∨ s.nj ≠ q_out.length then
    some ⟨E_SIZE_MISMATCH, q_out, { s with error := E_SIZE_MISMATCH }⟩
  else do
    let w ← lmaFwdpos c q_init s.fk
    let s := { s with fk := w }
    let delta := (Frame.diff w.head goal 1).weigh s.L
    let norm := delta.norm6
    if norm < s.eps then
      let t := Frame.diff w.head goal 1
      let sv := List.ofFn (svd s.nj (jacMat s.nj s.jac)).S
      some ⟨E_NOERROR, q_init, { s.setDiff t with
        sv := some sv, lastNrOfIter := 0, lastDifference := t.norm6, lastSV := sv, error := E_NOERROR }⟩
    else do
      let J ← lmaJacobian c q_init w s.jac
      lmaLoop c svd goal s.maxiter 0 { s with jac := J.map (Twist.weigh s.L) } ⟨q_init, delta, norm, 10, 2⟩

end KDL
