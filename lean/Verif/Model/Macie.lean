import Verif.Model.IkVel

/-!
# Model of `svd_eigen_Macie` and of `ChainIkSolverVel_pinv_givens`

Source: `utilities/svd_eigen_Macie.cpp`, `chainiksolvervel_pinv_givens.cpp`, relative to `/repo/orocos_kdl/src`.

The decomposition is modelled step by step: plane rotations, sweeps over all pairs, repetition until a sweep makes no
rotation.  The repetition has no bound in the code; the model counts sweeps with a fuel argument and a call returns iff it
returns for some amount of fuel.  Comparisons with a NaN are false; a division by zero that puts a NaN into the matrices
is the outcome `nan` (the pair is then rotated in every later sweep too, so the code does not return either).
-/

noncomputable section

namespace KDL

open Matrix

/-- `X.col(i).dot(X.col(j))`. -/
def colsDot {ρ κ : Type*} [Fintype ρ] (X : Matrix ρ κ ℝ) (i j : κ) : ℝ := ∑ r, X r i * X r j

/-- What the body of the loop over pairs decides to do. -/
inductive PlaneRot
  | skip
  | nan
  | turn (c s : ℝ)

open Classical in
/-- svd_eigen_Macie.cpp:42–63 (and the same lines 106–129): `alpha` is `0/0`, a NaN, if one of the columns is zero, and
`alpha < threshold` is then false; `c` is zero only if `p` and `q` are, and `(c+q)/(2*c)` is then `0/0`. -/
def planeRot (threshold p qi qj : ℝ) : PlaneRot :=
  if qi * qj ≠ 0 ∧ p ^ 2 / (qi * qj) < threshold then .skip
  else
    let q := qi - qj
    let c := Real.sqrt (4 * p ^ 2 + q ^ 2)
    if c = 0 then .nan
    else if q ≥ 0 then
      let cos := Real.sqrt ((c + q) / (2 * c))
      .turn cos (p / (c * cos))
    else
      let sin := if p < 0 then -Real.sqrt ((c - q) / (2 * c)) else Real.sqrt ((c - q) / (2 * c))
      .turn (p / (c * sin)) sin

/-- svd_eigen_Macie.cpp:66–73 and 132–140: `tempi` holds the new column `i` until column `j` has been computed. -/
def turnCols {ρ κ : Type*} [DecidableEq κ] (X : Matrix ρ κ ℝ) (i j : κ) (c s : ℝ) : Matrix ρ κ ℝ := fun r k =>
  if k = i then c * X r i + s * X r j else if k = j then -s * X r i + c * X r j else X r k

/-- The two matrices that are rotated together: `B` and `V` if `toggle`, the transposes of `B` and `U` if not (the code
then works on rows of `B` and columns of `U`). -/
structure MacieWork (ρ σ κ : Type*) where
  B : Matrix ρ κ ℝ
  W : Matrix σ κ ℝ

/-- One pair of columns, svd_eigen_Macie.cpp:41–75 and 105–142; the second component counts `rotations`. -/
def macieStep {ρ σ κ : Type*} [Fintype ρ] [DecidableEq κ] (threshold : ℝ) (st : MacieWork ρ σ κ × ℕ) (ij : κ × κ) :
    Option (MacieWork ρ σ κ × ℕ) :=
  match planeRot threshold (colsDot st.1.B ij.1 ij.2) (colsDot st.1.B ij.1 ij.1) (colsDot st.1.B ij.2 ij.2) with
  | .skip => some st
  | .nan => none
  | .turn c s => some (⟨turnCols st.1.B ij.1 ij.2 c s, turnCols st.1.W ij.1 ij.2 c s⟩, st.2 + 1)

/-- One sweep, svd_eigen_Macie.cpp:36–77 and 100–144.  `none`: NaN. -/
def macieSweep {ρ σ κ : Type*} [Fintype ρ] [DecidableEq κ] (threshold : ℝ) (pairs : List (κ × κ)) (w : MacieWork ρ σ κ) :
    Option (MacieWork ρ σ κ × ℕ) :=
  pairs.foldlM (macieStep threshold) (w, 0)

/-- Outcome of the `while(rotate)` loop: it has returned, it contains NaNs, or it has not returned yet. -/
inductive MacieRes (α : Type*)
  | done (a : α) (sweeps : ℕ)
  | nan
  | running

/-- `while(rotate)`, svd_eigen_Macie.cpp:35–94 and 99–158.  The second matrix and `S` are recomputed by `upd` from the
rotated `B` only after a sweep with rotations. -/
def macieLoop {ρ σ κ α : Type*} [Fintype ρ] [DecidableEq κ] (threshold : ℝ) (pairs : List (κ × κ))
    (upd : Matrix ρ κ ℝ → α) : ℕ → MacieWork ρ σ κ → α → ℕ → MacieRes (MacieWork ρ σ κ × α)
  | 0, _, _, _ => .running
  | fuel + 1, w, a, sweeps =>
    match macieSweep threshold pairs w with
    | none => .nan
    | some (w', rotations) =>
      if rotations ≠ 0 then macieLoop threshold pairs upd fuel w' (upd w'.B) (sweeps + 1) else .done (w', a) sweeps

/-- `for i … for j = i+1 …`: the pairs in the order of the loops, svd_eigen_Macie.cpp:39. -/
def maciePairs (n : ℕ) : List (Fin n × Fin n) :=
  (List.finRange n).flatMap fun i => ((List.finRange n).filter fun j => i < j).map fun j => (i, j)

/-- The matrices of `svd_eigen_Macie` (svd_eigen_Macie.hpp:57) for an `m × n` matrix, `n ≤ m`: `U` is `m × m`. -/
structure MacieOut (m n : ℕ) where
  U : Matrix (Fin m) (Fin m) ℝ
  S : Fin n → ℝ
  V : Matrix (Fin n) (Fin n) ℝ

open Classical in
/-- `U` and `S` from the columns of `B`, svd_eigen_Macie.cpp:79–91; the columns of `U` from `n` on become zero. -/
def macieUpdCols {m n : ℕ} (B : Matrix (Fin m) (Fin n) ℝ) : Matrix (Fin m) (Fin m) ℝ × (Fin n → ℝ) :=
  (fun r i => if h : (i : ℕ) < n then
      (if Real.sqrt (colsDot B ⟨i, h⟩ ⟨i, h⟩) = 0 then B r ⟨i, h⟩ else B r ⟨i, h⟩ / Real.sqrt (colsDot B ⟨i, h⟩ ⟨i, h⟩)) else 0,
    fun i => Real.sqrt (colsDot B i i))

open Classical in
/-- `V` and `S` from the first `n` rows of `B`, svd_eigen_Macie.cpp:147–155; `X` is `B` transposed. -/
def macieUpdRows {m n : ℕ} (h : n ≤ m) (X : Matrix (Fin n) (Fin m) ℝ) : Matrix (Fin n) (Fin n) ℝ × (Fin n → ℝ) :=
  (fun r i => if Real.sqrt (colsDot X (i.castLE h) (i.castLE h)) = 0 then X r (i.castLE h)
      else X r (i.castLE h) / Real.sqrt (colsDot X (i.castLE h) (i.castLE h)),
    fun i => Real.sqrt (colsDot X (i.castLE h) (i.castLE h)))

/-- `svd_eigen_Macie(A,U,S,V,B,tempi,threshold,toggle)`, svd_eigen_Macie.cpp:25.  `o` holds `U`, `S` and `V` before the
call.  If `toggle` is false only the first `n` of the `m` rows of `B` take part (lines 103, 104: `i<B.cols()`). -/
def macie {m n : ℕ} (h : n ≤ m) (threshold : ℝ) (toggle : Bool) (A : Matrix (Fin m) (Fin n) ℝ) (o : MacieOut m n)
    (fuel : ℕ) : MacieRes (MacieOut m n) :=
  if toggle then
    match macieLoop threshold (maciePairs n) macieUpdCols fuel ⟨A * o.V, o.V⟩ (o.U, o.S) 0 with
    | .done (w, US) k => .done ⟨US.1, US.2, w.W⟩ k
    | .nan => .nan
    | .running => .running
  else
    match macieLoop threshold ((maciePairs n).map fun ij => (ij.1.castLE h, ij.2.castLE h)) (macieUpdRows h) fuel
        ⟨(o.Uᵀ * A)ᵀ, o.U⟩ (o.V, o.S) 0 with
    | .done (w, VS) k => .done ⟨w.W, VS.2, VS.1⟩ k
    | .nan => .nan
    | .running => .running

/-! ## `ChainIkSolverVel_pinv_givens` -/

/-- Members of `ChainIkSolverVel_pinv_givens`, chainiksolvervel_pinv_givens.hpp:52–60 (the others are overwritten before
use): `m` is `max(6,nj)` and `n` is `min(6,nj)`. -/
structure GivensState where
  nj : ℕ
  toggle : Bool
  o : MacieOut (max 6 nj) (min 6 nj)

/-- Constructor, chainiksolvervel_pinv_givens.cpp:27.  `S(n)` leaves the vector `S` uninitialised: its contents are the
argument `S0`. -/
def GivensState.new (c : Chain) (S0 : Fin (min 6 c.nrOfJoints) → ℝ) : GivensState := ⟨c.nrOfJoints, true, ⟨1, S0, 1⟩⟩

theorem min_le_max_six (nj : ℕ) : min 6 nj ≤ max 6 nj := le_trans (min_le_left _ _) (le_max_left _ _)

/-- `jac_eigen`, chainiksolvervel_pinv_givens.cpp:87–93: the Jacobian, transposed if there are more than six joints. -/
def jacEigen (nj : ℕ) (A : Matrix (Fin 6) (Fin nj) ℝ) : Matrix (Fin (max 6 nj)) (Fin (min 6 nj)) ℝ := fun i j =>
  if h : nj > 6 then A ⟨j, by have := j.2; omega⟩ ⟨i, by have := i.2; omega⟩
  else A ⟨i, by have := i.2; omega⟩ ⟨j, by have := j.2; omega⟩

open Classical in
/-- `SUY(i)`, chainiksolvervel_pinv_givens.cpp:101–110. -/
def givensSuy (S UY : ℝ) : ℝ := (if S ≠ 0 then 1 / S else 0) * UY

/-- `qdot_eigen`, chainiksolvervel_pinv_givens.cpp:96–116.  The entries of `SUY` from `n` on are zero. -/
def givensQdot (nj : ℕ) (o : MacieOut (max 6 nj) (min 6 nj)) (v : Twist) : Fin nj → ℝ := fun r =>
  if h : nj > 6 then
    ∑ i : Fin (min 6 nj), o.U ⟨r, by have := r.2; omega⟩ ⟨i, by have := i.2; omega⟩ *
      givensSuy (o.S i) (∑ k : Fin 6, o.V ⟨k, by have := k.2; omega⟩ i * v.comp k)
  else
    ∑ i : Fin (min 6 nj), o.V ⟨r, by have := r.2; omega⟩ i *
      givensSuy (o.S i) (∑ k : Fin 6, o.U ⟨k, by have := k.2; omega⟩ ⟨i, by have := i.2; omega⟩ * v.comp k)

/-- Outcome of `CartToJnt`. -/
inductive GivensRes
  | done (ret : Int) (qdot : List ℝ)
  | nan
  | running

/-- `ChainIkSolverVel_pinv_givens::CartToJnt`, chainiksolvervel_pinv_givens.cpp:70.  The number of sweeps is ignored by the
code. -/
def GivensState.cartToJnt (s : GivensState) (c : Chain) (fuel : ℕ) (jac0 : Jac) (q_in : List ℝ) (v_in : Twist)
    (qdot_out : List ℝ) : Option (GivensRes × GivensState) :=
  if s.nj ≠ c.nrOfJoints then some (.done E_NOT_UP_TO_DATE qdot_out, s)
  else if s.nj ≠ q_in.length ∨ s.nj ≠ qdot_out.length then some (.done E_SIZE_MISMATCH qdot_out, s)
  else do
    let s := { s with toggle := !s.toggle }
    let (err, J) ← jntToJac c (List.replicate s.nj false) q_in jac0 (-1)
    if err < E_NOERROR then some (.done err qdot_out, s)
    else
      match macie (min_le_max_six s.nj) (1 / 10 ^ 15) s.toggle (jacEigen s.nj (jacMat s.nj J)) s.o fuel with
      | .done o _ => some (.done E_NOERROR (List.ofFn (givensQdot s.nj o v_in)), { s with o := o })
      | .nan => some (.nan, s)
      | .running => some (.running, s)

end KDL
