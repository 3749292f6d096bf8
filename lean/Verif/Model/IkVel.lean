import Verif.Model.ChainKin
import Mathlib.Data.Matrix.Mul
import Mathlib.Data.Matrix.Diagonal
import Mathlib.Data.Fintype.BigOperators
import Mathlib.Analysis.SpecialFunctions.Sqrt

/-!
# Model of the inverse velocity solvers

`chainiksolvervel_pinv.cpp`, `chainiksolvervel_wdls.cpp`, `chainiksolvervel_pinv_nso.cpp`.  All citations are relative to `/repo/orocos_kdl/src`.

The singular value decomposition (`utilities/svd_HH.cpp`, `svd_eigen_HH.cpp`, see `Model/Svd.lean`) is a parameter of
the model.  The theorems assume of it what its interface promises (`Props/IkVel.lean`, `IsSvd`).  The sums that the code
accumulates in loops starting from 0 are written as `∑`, which is the same number over ℝ.  A division by zero gives the
outcome `nonfinite`; an access outside an array gives `none`.
-/

noncomputable section

namespace KDL

open Matrix

/-- `Twist::operator()(int i)`, frames.inl:335. -/
def Twist.comp (t : Twist) (i : Fin 6) : ℝ :=
  match i with
  | 0 => t.vel.x | 1 => t.vel.y | 2 => t.vel.z | 3 => t.rot.x | 4 => t.rot.y | 5 => t.rot.z

/-- `Jacobian::operator()(i,j)` of a Jacobian with `n` columns, jacobian.cpp:60. -/
def jacMat (n : ℕ) (J : Jac) : Matrix (Fin 6) (Fin n) ℝ := fun r i => (J.getD i 0).comp r

/-- Result of a decomposition routine: its return code and the three arrays. -/
structure SvdOut (m n : ℕ) where
  code : Int
  U : Matrix (Fin m) (Fin n) ℝ
  S : Fin n → ℝ
  V : Matrix (Fin n) (Fin n) ℝ

/-- Outcome of `CartToJnt`: the returned code with the contents of `qdot_out`, or a call in which a division by zero put
a NaN or an infinity into `qdot_out` (the code is returned all the same). -/
inductive VelOut
  | done (ret : Int) (qdot : List ℝ)
  | nonfinite (ret : Int)

/-- `E_CONVERGE_PINV_SINGULAR`, chainiksolvervel_pinv.hpp:45 and chainiksolvervel_wdls.hpp:67. -/
def E_CONVERGE_PINV_SINGULAR : Int := 100

/-- Subtraction of `unsigned int`s (32 bits), which wraps around. -/
def uSub (a b : ℕ) : ℕ := (a + 2 ^ 32 - b) % 2 ^ 32

open Classical in
/-- Number of near zero singular values, chainiksolvervel_pinv.cpp:103–107. -/
def nrZeroSigmas {n : ℕ} (S : Fin n → ℝ) (eps : ℝ) : ℕ := (Finset.univ.filter fun i => |S i| < eps).card

open Classical in
/-- The return code of chainiksolvervel_pinv.cpp:125–129 and chainiksolvervel_wdls.cpp:211–215;
`jac.columns()-jac.rows()` is computed with `unsigned int`s. -/
def pinvCode {n : ℕ} (S : Fin n → ℝ) (eps : ℝ) : Int :=
  if nrZeroSigmas S eps > uSub n 6 then E_CONVERGE_PINV_SINGULAR else E_NOERROR

/-! ## `ChainIkSolverVel_pinv` -/

/-- Members of `ChainIkSolverVel_pinv`, chainiksolvervel_pinv.hpp:103–116 (the others are overwritten before use). -/
structure PinvState where
  nj : ℕ
  eps : ℝ

/-- Constructor, chainiksolvervel_pinv.cpp:26. -/
def PinvState.new (c : Chain) (eps : ℝ) : PinvState := ⟨c.nrOfJoints, eps⟩
/-- `updateInternalDataStructures`, chainiksolvervel_pinv.cpp:43. -/
def PinvState.update (s : PinvState) (c : Chain) : PinvState := { s with nj := c.nrOfJoints }

open Classical in
/-- `tmp(i)` of chainiksolvervel_pinv.cpp:96–111. -/
def pinvTmp {n : ℕ} (U : Matrix (Fin 6) (Fin n) ℝ) (S : Fin n → ℝ) (eps : ℝ) (v : Twist) (i : Fin n) : ℝ :=
  let sum := ∑ j, U j i * v.comp j
  if |S i| < eps then 0 else sum / S i

/-- `qdot_out(i)` of chainiksolvervel_pinv.cpp:114–121. -/
def pinvQdot {n : ℕ} (U : Matrix (Fin 6) (Fin n) ℝ) (S : Fin n → ℝ) (V : Matrix (Fin n) (Fin n) ℝ) (eps : ℝ) (v : Twist)
    (i : Fin n) : ℝ := ∑ j, V i j * pinvTmp U S eps v j

open Classical in
/-- `ChainIkSolverVel_pinv::CartToJnt`, chainiksolvervel_pinv.cpp:62.  `jac0` is the Jacobian member before the call.  If
`eps ≤ 0` a zero singular value is divided by. -/
def PinvState.cartToJnt (s : PinvState) (c : Chain) (svd : (n : ℕ) → Matrix (Fin 6) (Fin n) ℝ → SvdOut 6 n)
    (jac0 : Jac) (q_in : List ℝ) (v_in : Twist) (qdot_out : List ℝ) : Option VelOut :=
  if s.nj ≠ c.nrOfJoints then some (.done E_NOT_UP_TO_DATE qdot_out)
  else if s.nj ≠ q_in.length ∨ s.nj ≠ qdot_out.length then some (.done E_SIZE_MISMATCH qdot_out)
  else do
    let (err, J) ← jntToJac c (List.replicate s.nj false) q_in jac0 (-1)
    if err < E_NOERROR then some (.done err qdot_out)
    else
      let r := svd s.nj (jacMat s.nj J)
      if r.code ≠ 0 then some (.done E_SVD_FAILED (List.replicate s.nj 0))
      else if ∃ i, ¬ |r.S i| < s.eps ∧ r.S i = 0 then some (.nonfinite (pinvCode r.S s.eps))
      else some (.done (pinvCode r.S s.eps) (List.ofFn (pinvQdot r.U r.S r.V s.eps v_in)))

/-! ## `ChainIkSolverVel_wdls` -/

/-- An `Eigen::MatrixXd`: its two sizes and its coefficients. -/
structure EMat where
  rows : ℕ
  cols : ℕ
  get : ℕ → ℕ → ℝ
/-- `Eigen::MatrixXd::Identity(n,n)`. -/
def EMat.identity (n : ℕ) : EMat := ⟨n, n, fun i j => if i = j then 1 else 0⟩
/-- `size()` is the number of coefficients. -/
def EMat.size (m : EMat) : ℕ := m.rows * m.cols
/-- `conservativeResizeLike(Identity(n,n))`: old coefficients are kept, new ones are taken from the identity. -/
def EMat.resizeLikeIdentity (m : EMat) (n : ℕ) : EMat :=
  ⟨n, n, fun i j => if i < m.rows ∧ j < m.cols then m.get i j else if i = j then 1 else 0⟩

/-- Members of `ChainIkSolverVel_wdls`, chainiksolvervel_wdls.hpp:221–246 (the others are overwritten before use). -/
structure WdlsState where
  nj : ℕ
  eps : ℝ
  lambda : ℝ
  wjs : EMat
  wts : EMat

/-- Constructor, chainiksolvervel_wdls.cpp:28: identity weights, `lambda` 0. -/
def WdlsState.new (c : Chain) (eps : ℝ) : WdlsState :=
  ⟨c.nrOfJoints, eps, 0, EMat.identity c.nrOfJoints, EMat.identity 6⟩
/-- `updateInternalDataStructures`, chainiksolvervel_wdls.cpp:54. -/
def WdlsState.update (s : WdlsState) (c : Chain) : WdlsState :=
  { s with nj := c.nrOfJoints, wjs := s.wjs.resizeLikeIdentity c.nrOfJoints }
/-- `setWeightJS`, chainiksolvervel_wdls.cpp:76. -/
def WdlsState.setWeightJS (s : WdlsState) (c : Chain) (m : EMat) : Int × WdlsState :=
  if s.nj ≠ c.nrOfJoints then (E_NOT_UP_TO_DATE, s)
  else if m.size ≠ s.wjs.size then (E_SIZE_MISMATCH, s) else (E_NOERROR, { s with wjs := m })
/-- `setWeightTS`, chainiksolvervel_wdls.cpp:86. -/
def WdlsState.setWeightTS (s : WdlsState) (m : EMat) : Int × WdlsState :=
  if m.size ≠ s.wts.size then (E_SIZE_MISMATCH, s) else (E_NOERROR, { s with wts := m })
/-- `setLambda`, chainiksolvervel_wdls.cpp:93. -/
def WdlsState.setLambda (s : WdlsState) (l : ℝ) : WdlsState := { s with lambda := l }

/-- `weight_js` as an `nj × nj` matrix. -/
def WdlsState.Wq (s : WdlsState) : Matrix (Fin s.nj) (Fin s.nj) ℝ := fun i j => s.wjs.get i j
/-- `weight_ts` as a `6 × 6` matrix. -/
def WdlsState.Wx (s : WdlsState) : Matrix (Fin 6) (Fin 6) ℝ := fun i j => s.wts.get i j
/-- The sizes that the products of chainiksolvervel_wdls.cpp:143–155 need. -/
def WdlsState.shapes (s : WdlsState) : Prop := s.wjs.rows = s.nj ∧ s.wjs.cols = s.nj ∧ s.wts.rows = 6 ∧ s.wts.cols = 6

open Classical in
/-- `lambda_scaled`, chainiksolvervel_wdls.cpp:157–180, for `nj ≥ 6`. -/
def lambdaScaled (sigmaMin eps lambda : ℝ) : ℝ :=
  if sigmaMin < eps then Real.sqrt (1 - sigmaMin / eps * (sigmaMin / eps)) * lambda else 0

open Classical in
/-- `tmp(i)` of chainiksolvervel_wdls.cpp:166–195; `ls` is `lambda_scaled`. -/
def wdlsTmp {n : ℕ} (Wx : Matrix (Fin 6) (Fin 6) ℝ) (U : Matrix (Fin 6) (Fin n) ℝ) (S : Fin n → ℝ) (eps ls : ℝ) (v : Twist)
    (i : Fin n) : ℝ :=
  let sum := if (i : ℕ) < 6 then ∑ j, (∑ k, Wx j k * U k i) * v.comp j else 0
  if |S i| < eps then
    if (i : ℕ) < 6 then sum * (S i / (S i * S i + ls * ls)) else 0
  else sum / S i

open Classical in
/-- `ChainIkSolverVel_wdls::CartToJnt`, chainiksolvervel_wdls.cpp:116.  `U.topLeftCorner(6,6)` (line 154) of the `6 × nj`
matrix `U` is out of bounds for `nj < 6`: undefined behaviour.  So is a product of matrices whose sizes do not match
(Eigen only asserts this).  The assignment of `lambda_scaled` inside the loop does not
depend on the loop variable; `sigmaMin/eps` divides by zero only if `eps = 0`, in which case `sigmaMin < eps` is false for
the non-negative `sigmaMin`. -/
def WdlsState.cartToJnt (s : WdlsState) (c : Chain) (svd : (n : ℕ) → Matrix (Fin 6) (Fin n) ℝ → SvdOut 6 n)
    (jac0 : Jac) (q_in : List ℝ) (v_in : Twist) (qdot_out : List ℝ) : Option VelOut :=
  if s.nj ≠ c.nrOfJoints then some (.done E_NOT_UP_TO_DATE qdot_out)
  else if s.nj ≠ q_in.length ∨ s.nj ≠ qdot_out.length then some (.done E_SIZE_MISMATCH qdot_out)
  else do
    let (err, J) ← jntToJac c (List.replicate s.nj false) q_in jac0 (-1)
    if err < E_NOERROR then some (.done err qdot_out)
    else if ¬ s.shapes then none
    else
      let r := svd s.nj (s.Wx * (jacMat s.nj J * s.Wq))
      if r.code ≠ 0 then some (.done E_SVD_FAILED (List.replicate s.nj 0))
      else if h : 6 ≤ s.nj then
        let ls := lambdaScaled (r.S ⟨5, by omega⟩) s.eps s.lambda
        if ∃ i, (¬ |r.S i| < s.eps ∧ r.S i = 0) ∨ (|r.S i| < s.eps ∧ (i : ℕ) < 6 ∧ r.S i * r.S i + ls * ls = 0) then
          some (.nonfinite (pinvCode r.S s.eps))
        else
          some (.done (pinvCode r.S s.eps) (List.ofFn fun i =>
            ∑ j, (s.Wq * r.V) i j * wdlsTmp s.Wx r.U r.S s.eps ls v_in j))
      else none

/-! ## `ChainIkSolverVel_pinv_nso` -/

/-- Members of `ChainIkSolverVel_pinv_nso`, chainiksolvervel_pinv_nso.hpp:145–163. -/
structure NsoState where
  nj : ℕ
  eps : ℝ
  alpha : ℝ
  weights : List ℝ
  opt_pos : List ℝ

/-- First constructor, chainiksolvervel_pinv_nso.cpp:27. -/
def NsoState.new (c : Chain) (opt_pos weights : List ℝ) (eps alpha : ℝ) : NsoState :=
  ⟨c.nrOfJoints, eps, alpha, weights, opt_pos⟩
/-- Second constructor, chainiksolvervel_pinv_nso.cpp:47: `weights` and `opt_pos` are default constructed (empty). -/
def NsoState.newDefault (c : Chain) (eps alpha : ℝ) : NsoState := ⟨c.nrOfJoints, eps, alpha, [], []⟩
/-- `updateInternalDataStructures`, chainiksolvervel_pinv_nso.cpp:65. -/
def NsoState.update (s : NsoState) (c : Chain) : NsoState :=
  { s with nj := c.nrOfJoints,
           opt_pos := s.opt_pos.take c.nrOfJoints ++ List.replicate (c.nrOfJoints - s.opt_pos.length) 0,
           weights := s.weights.take c.nrOfJoints ++ List.replicate (c.nrOfJoints - s.weights.length) 1 }
/-- `setWeights`, chainiksolvervel_pinv_nso.cpp:166. -/
def NsoState.setWeights (s : NsoState) (w : List ℝ) : Int × NsoState :=
  if s.nj ≠ w.length then (E_SIZE_MISMATCH, s) else (E_NOERROR, { s with weights := w })
/-- `setOptPos`, chainiksolvervel_pinv_nso.cpp:174. -/
def NsoState.setOptPos (s : NsoState) (o : List ℝ) : Int × NsoState :=
  if s.nj ≠ o.length then (E_SIZE_MISMATCH, s) else (E_NOERROR, { s with opt_pos := o })
/-- `setAlpha`, chainiksolvervel_pinv_nso.cpp:182. -/
def NsoState.setAlpha (s : NsoState) (a : ℝ) : Int × NsoState := (0, { s with alpha := a })

open Classical in
/-- `Sinv`, chainiksolvervel_pinv_nso.cpp:113–115. -/
def nsoSinv {n : ℕ} (S : Fin n → ℝ) (eps : ℝ) (i : Fin n) : ℝ := if |S i| < eps then 0 else 1 / S i

/-- A list as a vector. -/
def vecOf (n : ℕ) (l : List ℝ) : Fin n → ℝ := fun i => l.getD i 0

/-- `g` of chainiksolvervel_pinv_nso.cpp:140–145: the cost of the null space criterion. -/
def nsoG {n : ℕ} (q opt w : Fin n → ℝ) : ℝ := ∑ i, 1 / 2 * ((q i - opt i) * (q i - opt i)) * w i
/-- `A` of chainiksolvervel_pinv_nso.cpp:141–146. -/
def nsoA {n : ℕ} (q opt w : Fin n → ℝ) : ℝ := ∑ i, (q i - opt i) * (q i - opt i) * w i * w i

open Classical in
/-- `qdot_out` of chainiksolvervel_pinv_nso.cpp:120–161. -/
def nsoQdot {n : ℕ} (U : Matrix (Fin 6) (Fin n) ℝ) (S : Fin n → ℝ) (V : Matrix (Fin n) (Fin n) ℝ) (eps alpha : ℝ)
    (q opt w : Fin n → ℝ) (v : Twist) : Fin n → ℝ :=
  let q0 := (V * diagonal (nsoSinv S eps) * Uᵀ) *ᵥ v.comp
  if nsoA q opt w > 1 / 10 ^ 9 then
    let tmp : Fin n → ℝ := fun i => w i * (q i - opt i) / nsoA q opt w
    let tmp2 := (V * diagonal (nsoSinv S eps) * Uᵀ * U * diagonal S * Vᵀ) *ᵥ tmp
    fun i => q0 i + -2 * alpha * nsoG q opt w * (tmp i - tmp2 i)
  else q0

open Classical in
/-- `ChainIkSolverVel_pinv_nso::CartToJnt`, chainiksolvervel_pinv_nso.cpp:84.  `tmp(i) = v_in(i)` for `i < 6` (line 116)
writes outside `tmp`, which has `nj` entries, if `nj < 6`: undefined behaviour. -/
def NsoState.cartToJnt (s : NsoState) (c : Chain) (svd : (n : ℕ) → Matrix (Fin 6) (Fin n) ℝ → SvdOut 6 n)
    (jac0 : Jac) (q_in : List ℝ) (v_in : Twist) (qdot_out : List ℝ) : Option VelOut :=
  if s.nj ≠ c.nrOfJoints then some (.done E_NOT_UP_TO_DATE qdot_out)
  else if s.nj ≠ q_in.length ∨ s.nj ≠ qdot_out.length ∨ s.nj ≠ s.opt_pos.length ∨ s.nj ≠ s.weights.length then
    some (.done E_SIZE_MISMATCH qdot_out)
  else do
    let (err, J) ← jntToJac c (List.replicate s.nj false) q_in jac0 (-1)
    if err < E_NOERROR then some (.done err qdot_out)
    else
      let r := svd s.nj (jacMat s.nj J)
      if r.code ≠ 0 then some (.done E_SVD_FAILED (List.replicate s.nj 0))
      else if s.nj < 6 then none
      else if ∃ i, ¬ |r.S i| < s.eps ∧ r.S i = 0 then some (.nonfinite E_NOERROR)
      else some (.done E_NOERROR (List.ofFn (nsoQdot r.U r.S r.V s.eps s.alpha (vecOf s.nj q_in) (vecOf s.nj s.opt_pos)
        (vecOf s.nj s.weights) v_in)))

end KDL
