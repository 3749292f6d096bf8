import Verif.Model.IkVel
import Mathlib.Algebra.BigOperators.Intervals

/-!
# Model of the Householder singular value decomposition

`utilities/svd_eigen_HH.cpp` and `utilities/svd_HH.cpp` (`SVD_HH::calculate`), cited relative to `/repo/orocos_kdl/src`.

Matrices are functions of row and column, vectors functions of the index; what they are outside the ranges `rows`, `cols`
means nothing, so the upper bounds of loops that only store are left out.  All accesses are inside those ranges by the
bounds of the loops, with one exception, `S(nm)` with `nm = -1`, which is the outcome `ub`.  Loops whose passes do not
depend on each other (the loop over `j` that updates column `j`, the rotation of all rows) are written as one update; sums
accumulated from 0 are written as `∑`.

Arithmetic is exact except in the comparisons `(fabs(x)+anorm) == anorm` and `fabs(S(nm)+anorm) == anorm`, which in doubles
hold for small `x` also: `eqv x a` is the outcome of comparing the rounded `x` with `a` (equality for exact arithmetic).
-/

noncomputable section

namespace KDL
namespace Svd

abbrev Mat := ℕ → ℕ → ℝ

open Classical in
/-- `PYTHAG`, svd_eigen_HH.hpp:33, svd_HH.cpp:29. -/
def pythag (a b : ℝ) : ℝ :=
  if |a| > |b| then |a| * Real.sqrt (1 + |b| / |a| * (|b| / |a|))
  else if |b| = 0 then 0 else |b| * Real.sqrt (1 + |a| / |b| * (|a| / |b|))

open Classical in
/-- `SIGN`, svd_eigen_HH.hpp:51, svd_HH.cpp:47. -/
def SIGN (a b : ℝ) : ℝ := if b ≥ 0 then |a| else -|a|

/-- The comparisons of the routine. -/
structure Tests where
  /-- `fabs(x)>epsilon` in svd_eigen_HH.cpp, `if (x)` in svd_HH.cpp -/
  big : ℝ → Prop
  /-- `(fabs(x)+anorm) == anorm`, arguments `anorm`, `x` -/
  tiny : ℝ → ℝ → Prop
  /-- `fabs(S(nm)+anorm) == anorm`, arguments `anorm`, `S(nm)` -/
  tinyS : ℝ → ℝ → Prop

/-- Comparisons of svd_eigen_HH.cpp. -/
def Tests.eigen (eps : ℝ) (eqv : ℝ → ℝ → Prop) : Tests := ⟨fun x => |x| > eps, fun a x => eqv (|x| + a) a, fun a x => eqv |x + a| a⟩
/-- Comparisons of svd_HH.cpp. -/
def Tests.hh (eqv : ℝ → ℝ → Prop) : Tests := ⟨fun x => x ≠ 0, fun a x => eqv (|x| + a) a, fun a x => eqv |x + a| a⟩

/-- Ways not to reach the end: a negative return code, or undefined behaviour. -/
inductive Fail
  | code (c : Int)
  | ub

/-- `v(i) = x`. -/
def set (v : ℕ → ℝ) (i : ℕ) (x : ℝ) : ℕ → ℝ := fun j => if j = i then x else v j

/-! ## Householder reduction to bidiagonal form -/

/-- `for (k=i;k<rows;k++) U(k,i) *= x`. -/
def colMul (U : Mat) (i : ℕ) (x : ℝ) : Mat := fun k j => if j = i ∧ i ≤ k then U k j * x else U k j
/-- `for (k=i;k<rows;k++) U(k,i) /= x`. -/
def colDiv (U : Mat) (i : ℕ) (x : ℝ) : Mat := fun k j => if j = i ∧ i ≤ k then U k j / x else U k j
/-- `U(r,c) = x`. -/
def put (U : Mat) (r c : ℕ) (x : ℝ) : Mat := fun k j => if k = r ∧ j = c then x else U k j
/-- Loop svd_eigen_HH.cpp:60–67 (svd_HH.cpp:98–104). -/
def colUpd (rows : ℕ) (U : Mat) (i : ℕ) (h : ℝ) : Mat := fun k j =>
  if i < j ∧ i ≤ k then U k j + (∑ l ∈ Finset.Ico i rows, U l i * U l j) / h * U k i else U k j

open Classical in
/-- The column part of a pass, svd_eigen_HH.cpp:45–72 (svd_HH.cpp:85–109): `U` and the value stored in `S(i)`. -/
def hhCol (T : Tests) (rows cols i : ℕ) (U : Mat) : Except Fail (Mat × ℝ) :=
  if i < rows then
    let scale := ∑ k ∈ Finset.Ico i rows, |U k i|
    if T.big scale then
      let U1 := colDiv U i scale
      let s := ∑ k ∈ Finset.Ico i rows, U1 k i * U1 k i
      let f := U1 i i
      if ¬ s ≥ 0 then .error (.code (-3))
      else
        let g := -SIGN (Real.sqrt s) f
        let h := f * g - s
        let U2 := put U1 i i (f - g)
        if i + 1 < cols ∧ h = 0 then .error (.code (-4))
        else .ok (colMul (colUpd rows U2 i h) i scale, scale * g)
    else .ok (U, scale * 0)
  else .ok (U, 0)

/-- `for (k=ppi;k<cols;k++) U(i,k) *= x`. -/
def rowMul (U : Mat) (i : ℕ) (x : ℝ) : Mat := fun r k => if r = i ∧ i < k then U r k * x else U r k
/-- `for (k=ppi;k<cols;k++) U(i,k) /= x`. -/
def rowDiv (U : Mat) (i : ℕ) (x : ℝ) : Mat := fun r k => if r = i ∧ i < k then U r k / x else U r k
/-- Loop svd_eigen_HH.cpp:89–92 (svd_HH.cpp:124–127). -/
def rowUpd (cols : ℕ) (U : Mat) (tmp : ℕ → ℝ) (i : ℕ) : Mat := fun j k =>
  if i < j ∧ i < k then U j k + (∑ l ∈ Finset.Ico (i + 1) cols, U j l * U i l) * tmp k else U j k

open Classical in
/-- The row part of a pass, svd_eigen_HH.cpp:73–95 (svd_HH.cpp:110–130): `U`, `tmp` and the product `scale*g`, which the next
pass stores in `tmp(i+1)`. -/
def hhRow (T : Tests) (rows cols i : ℕ) (U : Mat) (tmp : ℕ → ℝ) : Except Fail (Mat × (ℕ → ℝ) × ℝ) :=
  if i < rows ∧ i + 1 ≠ cols then
    let scale := ∑ k ∈ Finset.Ico (i + 1) cols, |U i k|
    if T.big scale then
      let U1 := rowDiv U i scale
      let s := ∑ k ∈ Finset.Ico (i + 1) cols, U1 i k * U1 i k
      let f := U1 i (i + 1)
      if ¬ s ≥ 0 then .error (.code (-5))
      else
        let g := -SIGN (Real.sqrt s) f
        let h := f * g - s
        let U2 := put U1 i (i + 1) (f - g)
        if h = 0 then .error (.code (-6))
        else
          let tmp1 : ℕ → ℝ := fun k => if i < k then U2 i k / h else tmp k
          .ok (rowMul (rowUpd cols U2 tmp1 i) i scale, tmp1, scale * g)
    else .ok (U, tmp, scale * 0)
  else .ok (U, tmp, 0)

/-- Variables of the reduction; `e` is the product `scale*g`. -/
structure HH where
  U : Mat
  S : ℕ → ℝ
  tmp : ℕ → ℝ
  e : ℝ
  anorm : ℝ

open Classical in
/-- A pass of the loop svd_eigen_HH.cpp:41–99.  `maxarg1` and `maxarg2` are declared `bool`, so `anorm` becomes 0 or 1. -/
def hhStep (T : Tests) (rows cols i : ℕ) (st : HH) : Except Fail HH := do
  let tmp := set st.tmp i st.e
  let (U1, si) ← hhCol T rows cols i st.U
  let S := set st.S i si
  let (U2, tmp2, e) ← hhRow T rows cols i U1 tmp
  .ok ⟨U2, S, tmp2, e, if st.anorm ≠ 0 ∨ |S i| + |tmp2 i| ≠ 0 then 1 else 0⟩

/-- The first `t` passes. -/
def hhLoop (T : Tests) (rows cols : ℕ) (st : HH) : ℕ → Except Fail HH
  | 0 => .ok st
  | t + 1 => do
    let st' ← hhLoop T rows cols st t
    hhStep T rows cols t st'

/-! ## Accumulation of the transformations -/

open Classical in
/-- A pass of the loop svd_eigen_HH.cpp:101–116.  There `g` is `tmp(i+1)` and `ppi` is `i+1`, from the pass before. -/
def accRStep (T : Tests) (cols : ℕ) (U : Mat) (tmp : ℕ → ℝ) (i : ℕ) (V : Mat) : Except Fail Mat := do
  let V' ← if i + 1 < cols then do
      let g := tmp (i + 1)
      let V1 ← if T.big g then
          if U i (i + 1) = 0 then .error (Fail.code (-7))
          else
            let Va : Mat := fun j c => if c = i ∧ i < j then U i j / U i (i + 1) / g else V j c
            .ok fun k j => if i < k ∧ i < j then Va k j + (∑ l ∈ Finset.Ico (i + 1) cols, U i l * Va l j) * Va k i else Va k j
        else .ok V
      .ok (fun r c => if (r = i ∧ i < c) ∨ (c = i ∧ i < r) then 0 else V1 r c : Mat)
    else .ok V
  .ok fun r c => if r = i ∧ c = i then 1 else V' r c

/-- The loop: passes `t-1, …, 0`. -/
def accR (T : Tests) (cols : ℕ) (U : Mat) (tmp : ℕ → ℝ) : ℕ → Mat → Except Fail Mat
  | 0, V => .ok V
  | t + 1, V => do
    let V' ← accRStep T cols U tmp t V
    accR T cols U tmp t V'

open Classical in
/-- A pass of the loop svd_eigen_HH.cpp:118–135. -/
def accLStep (T : Tests) (rows cols : ℕ) (S : ℕ → ℝ) (i : ℕ) (U : Mat) : Except Fail Mat := do
  let U1 : Mat := fun k j => if k = i ∧ i < j then 0 else U k j
  let U2 ← if T.big (S i) then
      let g := 1 / S i
      if i + 1 < cols ∧ U1 i i = 0 then .error (Fail.code (-8))
      else
        let Ua : Mat := fun k j =>
          if i < j ∧ i ≤ k then U1 k j + (∑ l ∈ Finset.Ico (i + 1) rows, U1 l i * U1 l j) / U1 i i * g * U1 k i else U1 k j
        .ok (fun k j => if j = i ∧ i ≤ k then Ua k j * g else Ua k j : Mat)
    else .ok (fun k j => if j = i ∧ i ≤ k then 0 else U1 k j : Mat)
  .ok fun k j => if k = i ∧ j = i then U2 k j + 1 else U2 k j

/-- The loop: passes `t-1, …, 0`. -/
def accL (T : Tests) (rows cols : ℕ) (S : ℕ → ℝ) : ℕ → Mat → Except Fail Mat
  | 0, U => .ok U
  | t + 1, U => do
    let U' ← accLStep T rows cols S t U
    accL T rows cols S t U'

/-! ## Diagonalisation -/

/-- Variables of the diagonalisation. -/
structure Dg where
  U : Mat
  S : ℕ → ℝ
  V : Mat
  tmp : ℕ → ℝ

/-- Rotation of columns `a` and `b`, svd_eigen_HH.cpp:163–168, 211–216, 226–231. -/
def rotCols (U : Mat) (a b : ℕ) (c s : ℝ) : Mat := fun r j =>
  if j = a then U r a * c + U r b * s else if j = b then U r b * c - U r a * s else U r j

open Classical in
/-- Test for splitting, svd_eigen_HH.cpp:140–148, starting at `ppi`: the final `ppi`, and `nm` if `flag` is still set.  At
`ppi = 0` the second comparison reads `S(-1)`. -/
def split (T : Tests) (a : ℝ) (S tmp : ℕ → ℝ) : ℕ → Option (ℕ × Option ℕ)
  | 0 => if T.tiny a (tmp 0) then some (0, none) else none
  | p + 1 => if T.tiny a (tmp (p + 1)) then some (p + 1, none)
    else if T.tinyS a (S p) then some (p + 1, some p) else split T a S tmp p

open Classical in
/-- Cancellation, svd_eigen_HH.cpp:150–169: remaining passes, `i`, `c`, `s`. -/
def cancel (T : Tests) (a : ℝ) (nm : ℕ) : ℕ → ℕ → ℝ → ℝ → Dg → Except Fail Dg
  | 0, _, _, _, st => .ok st
  | d + 1, i, c, s, st =>
    let f := s * st.tmp i
    let tmp := set st.tmp i (c * st.tmp i)
    if T.tiny a f then .ok { st with tmp := tmp }
    else
      let g := st.S i
      let h := pythag f g
      let S := set st.S i h
      if h = 0 then .error (.code (-9))
      else
        let c := g * (1 / h)
        let s := -f * (1 / h)
        cancel T a nm d (i + 1) c s { st with U := rotCols st.U nm i c s, S := S, tmp := tmp }

/-- `if (flag) {…}`, svd_eigen_HH.cpp:149. -/
def cancelIf (T : Tests) (a : ℝ) (k ppi : ℕ) (nm : Option ℕ) (st : Dg) : Except Fail Dg :=
  match nm with
  | some nm => cancel T a nm (k + 1 - ppi) ppi 0 1 st
  | none => .ok st

open Classical in
/-- QR transformation, svd_eigen_HH.cpp:195–232: remaining passes, `j`, `f`, `x`, `c`, `s`.  Gives `f`, `x` and the arrays. -/
def qr (T : Tests) : ℕ → ℕ → ℝ → ℝ → ℝ → ℝ → Dg → Except Fail (ℝ × ℝ × Dg)
  | 0, _, f, x, _, _, st => .ok (f, x, st)
  | d + 1, j, f, x, c, s, st =>
    let i := j + 1
    let g := st.tmp i
    let y := st.S i
    let h := s * g
    let g := c * g
    let z := pythag f h
    let tmp := set st.tmp j z
    if z = 0 then .error (.code (-13))
    else
      let c := f / z
      let s := h / z
      let f := x * c + g * s
      let g := g * c - x * s
      let h := y * s
      let y := y * c
      let V := rotCols st.V j i c s
      let z := pythag f h
      let S := set st.S j z
      let cs := if T.big z then (f * (1 / z), h * (1 / z)) else (c, s)
      let c := cs.1
      let s := cs.2
      let f := c * g + s * y
      let x := c * y - s * g
      qr T d (j + 1) f x c s ⟨rotCols st.U j i c s, S, V, tmp⟩

open Classical in
/-- Loop over the iterations for one singular value, svd_eigen_HH.cpp:139–236: remaining iterations, `its`.  Gives `its`
when the loop is left. -/
def diagK (T : Tests) (a : ℝ) (k : ℕ) : ℕ → Int → Dg → Except Fail (Int × Dg)
  | 0, its, st => .ok (its, st)
  | n + 1, its, st =>
    match split T a st.S st.tmp k with
    | none => .error .ub
    | some (ppi, nm) => do
      let st ← cancelIf T a k ppi nm st
      let z := st.S k
      if ppi = k then
        if z < 0 then .ok (its, { st with S := set st.S k (-z), V := fun r j => if j = k then -st.V r j else st.V r j })
        else .ok (its, st)
      else
        let x := st.S ppi
        let y := st.S (k - 1)
        let g := st.tmp (k - 1)
        let h := st.tmp k
        if h = 0 ∨ y = 0 then .error (.code (-10))
        else
          let f := ((y - z) * (y + z) + (g - h) * (g + h)) / (2 * h * y)
          let g := pythag f 1
          if x = 0 then .error (.code (-11))
          else if f + SIGN g f = 0 then .error (.code (-12))
          else do
            let f := ((x - z) * (x + z) + h * (y / (f + SIGN g f) - h)) / x
            let (f, x, st) ← qr T (k - ppi) ppi f x 1 1 st
            diagK T a k n (its + 1) { st with tmp := set (set st.tmp ppi 0) k f, S := set st.S k x }

/-- Loop over the singular values `t-1, …, 0`, svd_eigen_HH.cpp:138: the list of the values of `its` at the end of the inner
loops (last first) and the arrays. -/
def diagAll (T : Tests) (a : ℝ) (maxiter : Int) : ℕ → List Int → Dg → Except Fail (List Int × Dg)
  | 0, l, st => .ok (l, st)
  | t + 1, l, st => do
    let (its, st) ← diagK T a t maxiter.toNat 1 st
    diagAll T a maxiter t (its :: l) st

/-- Everything up to the end of the diagonalisation; `V0`, `S0`, `tmp0` are the contents of the arrays before the call. -/
def run (T : Tests) (rows cols : ℕ) (maxiter : Int) (A V0 : Mat) (S0 tmp0 : ℕ → ℝ) : Except Fail (List Int × Dg) := do
  let h ← hhLoop T rows cols ⟨A, S0, tmp0, 0, 0⟩ cols
  let V ← accR T cols h.U h.tmp cols V0
  let U ← accL T rows cols h.S (min cols rows) h.U
  diagAll T h.anorm maxiter cols [] ⟨U, h.S, V, h.tmp⟩

/-- `if (its == maxiter) return (-2); else return (0);`, svd_eigen_HH.cpp:263; `its` is −1 if there are no columns. -/
def retCode (maxiter : Int) (l : List Int) : Int := if l.headD (-1) = maxiter then -2 else 0

/-! ## Sorting -/

open Classical in
/-- Search for the largest value, svd_eigen_HH.cpp:242–250: remaining passes, `j`, `i_max`. -/
def findMax (S : ℕ → ℝ) : ℕ → ℕ → ℕ → ℕ
  | 0, _, im => im
  | d + 1, j, im => findMax S d (j + 1) (if S j > S im then j else im)

/-- `i` and `j` exchanged. -/
def swapIdx (i j k : ℕ) : ℕ := if k = i then j else if k = j then i else k

/-- A pass of the loop svd_eigen_HH.cpp:240–261. -/
def sortStep (cols i : ℕ) (st : Dg) : Dg :=
  let im := findMax st.S (cols - (i + 1)) (i + 1) i
  if im ≠ i then
    { st with
      S := fun k => st.S (swapIdx i im k)
      U := fun r k => st.U r (swapIdx i im k)
      V := fun r k => st.V r (swapIdx i im k) }
  else st

/-- The first `t` passes. -/
def sortLoop (cols : ℕ) (st : Dg) : ℕ → Dg
  | 0 => st
  | t + 1 => sortStep cols t (sortLoop cols st t)

/-- The part of the arrays that the caller sees. -/
def Dg.out (rows cols : ℕ) (code : Int) (st : Dg) : SvdOut rows cols :=
  ⟨code, fun r j => st.U r j, fun j => st.S j, fun r j => st.V r j⟩

/-- The matrix as a function of row and column. -/
def ofMatrix {rows cols : ℕ} (A : Matrix (Fin rows) (Fin cols) ℝ) : Mat := fun r c =>
  if h : r < rows ∧ c < cols then A ⟨r, h.1⟩ ⟨c, h.2⟩ else 0

end Svd

open Svd

/-- `svd_eigen_HH`, svd_eigen_HH.cpp:26, with arrays of the sizes of svd_eigen_HH.hpp:58–62.  A failing call leaves values
in the arrays that no caller looks at; only its code is kept. -/
def svdEigenHH (eqv : ℝ → ℝ → Prop) (eps : ℝ) (maxiter : Int) (V0 : Mat) (S0 tmp0 : ℕ → ℝ) {rows cols : ℕ}
    (A : Matrix (Fin rows) (Fin cols) ℝ) : Except Fail (SvdOut rows cols) := do
  let (l, st) ← run (Tests.eigen eps eqv) rows cols maxiter (ofMatrix A) V0 S0 tmp0
  .ok ((sortLoop cols st cols).out rows cols (retCode maxiter l))

/-- `SVD_HH::calculate`, svd_HH.cpp:60, which neither tests denominators nor sorts.  The places where svd_eigen_HH.cpp
returns a negative code are divisions by zero (or roots of negative numbers) here. -/
def svdHH (eqv : ℝ → ℝ → Prop) (maxiter : Int) (V0 : Mat) (S0 tmp0 : ℕ → ℝ) {rows cols : ℕ}
    (A : Matrix (Fin rows) (Fin cols) ℝ) : Except Fail (SvdOut rows cols) := do
  let (l, st) ← run (Tests.hh eqv) rows cols maxiter (ofMatrix A) V0 S0 tmp0
  .ok (st.out rows cols (retCode maxiter l))

end KDL
