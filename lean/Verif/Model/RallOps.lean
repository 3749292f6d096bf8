import Verif.Model.Rall

/-! Model of the members of `utilities/rall1d.h` and `utilities/rall2d.h` that are not in `Verif/Model/Rall.lean`, with
`T = V = S = double`.  On doubles (utility.h:231–258) `LinComb(alfa,a,beta,b)` is `alfa*a+beta*b`, `LinCombR` writes the
same number to its last argument, `SetToZero` writes 0, `SetToIdentity` writes 1 and `Norm` is `fabs`.

In-place operators applied to the object itself (`x /= x`) get definitions of their own: `rhs` is then a reference to
`*this`, so every assignment is visible to the reads after it.  `operator==` is `Equal` with the default `epsilon`,
because kdl-config.h:33 defines `KDL_USE_EQUAL`. -/

noncomputable section
namespace KDL
namespace Rall1d
/-- `operator/=(S)`, rall1d.h:131. -/
def divAssignS (this : Rall1d) (rhs : ℝ) : Rall1d :=
  let grad := this.grad / rhs
  let t := this.t / rhs
  ⟨t, grad⟩
/-- `operator*=(S)`, rall1d.h:138. -/
def mulAssignS (this : Rall1d) (rhs : ℝ) : Rall1d :=
  let grad := this.grad * rhs
  let t := this.t * rhs
  ⟨t, grad⟩
/-- `operator+=(S)`, rall1d.h:145: only the value moves. -/
def addAssignS (this : Rall1d) (rhs : ℝ) : Rall1d := ⟨this.t + rhs, this.grad⟩
/-- `operator-=(S)`, rall1d.h:151. -/
def subAssignS (this : Rall1d) (rhs : ℝ) : Rall1d := ⟨this.t - rhs, this.grad⟩
/-- `operator=(S)`, rall1d.h:97. -/
def assignS (_this : Rall1d) (c : ℝ) : Rall1d := ⟨c, 0⟩
/-- `SetToZero`, rall1d.h:456: the derivative first, then the value. -/
def setToZero (value : Rall1d) : Rall1d :=
  let value := { value with grad := 0 }
  { value with t := 0 }
/-- `SetToIdentity`, rall1d.h:462. -/
def setToIdentity (value : Rall1d) : Rall1d :=
  let value := { value with t := 1 }
  { value with grad := 0 }
/-- `Zero()`, rall1d.h:86: `SetToZero` on a default-constructed object. -/
def zero : Rall1d := setToZero ⟨0, 0⟩
/-- `Identity()`, rall1d.h:91. -/
def identity : Rall1d := setToIdentity ⟨0, 0⟩
/-- `Norm`, rall1d.h:418. -/
def norm (value : Rall1d) : ℝ := |value.t|
/-- `LinComb`, rall1d.h:439. -/
def linComb (alfa : ℝ) (a : Rall1d) (beta : ℝ) (b : Rall1d) : Rall1d :=
  ⟨alfa * a.t + beta * b.t, alfa * a.grad + beta * b.grad⟩
/-- `LinCombR`, rall1d.h:448, with three distinct objects: `result` is written component by component. -/
def linCombR (alfa : ℝ) (a : Rall1d) (beta : ℝ) (b result : Rall1d) : Rall1d :=
  let result := { result with t := alfa * a.t + beta * b.t }
  { result with grad := alfa * a.grad + beta * b.grad }
/-- `LinCombR(alfa, a, beta, b, a)`: the result is the first operand, so `a.grad` is read after `a.t` is written. -/
def linCombRFst (alfa : ℝ) (a : Rall1d) (beta : ℝ) (b : Rall1d) : Rall1d :=
  let a := { a with t := alfa * a.t + beta * b.t }
  { a with grad := alfa * a.grad + beta * b.grad }
/-- `LinCombR(alfa, a, beta, b, b)`: the result is the second operand. -/
def linCombRSnd (alfa : ℝ) (a : Rall1d) (beta : ℝ) (b : Rall1d) : Rall1d :=
  let b := { b with t := alfa * a.t + beta * b.t }
  { b with grad := alfa * a.grad + beta * b.grad }
/-- `Equal`, rall1d.h:469 (its first parameter is called `y`). -/
def equal (y x : Rall1d) (eps : ℝ) : Prop := realEqual x.t y.t eps ∧ realEqual x.grad y.grad eps
/-- `x /= x`, rall1d.h:103 with `rhs` bound to `*this`. -/
def divAssignSelf (x : Rall1d) : Rall1d :=
  let x := { x with grad := (x.t * x.grad + -x.t * x.grad) / (x.t * x.t) }
  { x with t := x.t / x.t }
/-- `x *= x`, rall1d.h:110. -/
def mulAssignSelf (x : Rall1d) : Rall1d :=
  let x := { x with grad := x.t * x.grad + x.t * x.grad }
  { x with t := x.t * x.t }
/-- `x += x`, rall1d.h:117. -/
def addAssignSelf (x : Rall1d) : Rall1d :=
  let x := { x with grad := x.grad + x.grad }
  { x with t := x.t + x.t }
/-- `x -= x`, rall1d.h:124. -/
def subAssignSelf (x : Rall1d) : Rall1d :=
  let x := { x with grad := x.grad - x.grad }
  { x with t := x.t - x.t }
end Rall1d

namespace Rall2d
/-- `Rall2d(tn, afg)`, rall2d.h:67: the second derivative is set to zero. -/
def ofValD (tn afg : ℝ) : Rall2d := ⟨tn, afg, 0⟩
/-- `operator/=(S)`, rall2d.h:139. -/
def divAssignS (this : Rall2d) (rhs : ℝ) : Rall2d := ⟨this.t / rhs, this.d / rhs, this.dd / rhs⟩
/-- `operator*=(S)`, rall2d.h:147. -/
def mulAssignS (this : Rall2d) (rhs : ℝ) : Rall2d := ⟨this.t * rhs, this.d * rhs, this.dd * rhs⟩
/-- `operator-=(S)`, rall2d.h:155. -/
def subAssignS (this : Rall2d) (rhs : ℝ) : Rall2d := ⟨this.t - rhs, this.d, this.dd⟩
/-- `operator+=(S)`, rall2d.h:161. -/
def addAssignS (this : Rall2d) (rhs : ℝ) : Rall2d := ⟨this.t + rhs, this.d, this.dd⟩
/-- `operator=(S)`, rall2d.h:100. -/
def assignS (_this : Rall2d) (c : ℝ) : Rall2d := ⟨c, 0, 0⟩
/-- `SetToZero`, rall2d.h:510. -/
def setToZero (value : Rall2d) : Rall2d :=
  let value := { value with t := 0 }
  let value := { value with d := 0 }
  { value with dd := 0 }
/-- `SetToIdentity`, rall2d.h:518. -/
def setToIdentity (value : Rall2d) : Rall2d :=
  let value := { value with d := 0 }
  let value := { value with t := 1 }
  { value with dd := 0 }
/-- `Zero()`, rall2d.h:89. -/
def zero : Rall2d := setToZero ⟨0, 0, 0⟩
/-- `Identity()`, rall2d.h:94. -/
def identity : Rall2d := setToIdentity ⟨0, 0, 0⟩
/-- `Norm`, rall2d.h:483. -/
def norm (value : Rall2d) : ℝ := |value.t|
/-- `LinComb`, rall2d.h:492. -/
def linComb (alfa : ℝ) (a : Rall2d) (beta : ℝ) (b : Rall2d) : Rall2d :=
  ⟨alfa * a.t + beta * b.t, alfa * a.d + beta * b.d, alfa * a.dd + beta * b.dd⟩
/-- `LinCombR`, rall2d.h:502, with three distinct objects. -/
def linCombR (alfa : ℝ) (a : Rall2d) (beta : ℝ) (b result : Rall2d) : Rall2d :=
  let result := { result with t := alfa * a.t + beta * b.t }
  let result := { result with d := alfa * a.d + beta * b.d }
  { result with dd := alfa * a.dd + beta * b.dd }
/-- `LinCombR(alfa, a, beta, b, a)`. -/
def linCombRFst (alfa : ℝ) (a : Rall2d) (beta : ℝ) (b : Rall2d) : Rall2d :=
  let a := { a with t := alfa * a.t + beta * b.t }
  let a := { a with d := alfa * a.d + beta * b.d }
  { a with dd := alfa * a.dd + beta * b.dd }
/-- `LinCombR(alfa, a, beta, b, b)`. -/
def linCombRSnd (alfa : ℝ) (a : Rall2d) (beta : ℝ) (b : Rall2d) : Rall2d :=
  let b := { b with t := alfa * a.t + beta * b.t }
  let b := { b with d := alfa * a.d + beta * b.d }
  { b with dd := alfa * a.dd + beta * b.dd }
/-- `Equal`, rall2d.h:526. -/
def equal (y x : Rall2d) (eps : ℝ) : Prop :=
  realEqual x.t y.t eps ∧ realEqual x.d y.d eps ∧ realEqual x.dd y.dd eps
/-- `x /= x`, rall2d.h:107 with `rhs` bound to `*this`: after the first assignment `rhs.t` is the quotient. -/
def divAssignSelf (x : Rall2d) : Rall2d :=
  let x := { x with t := x.t / x.t }
  let x := { x with d := (x.d - x.t * x.d) / x.t }
  { x with dd := (x.dd - 2 * x.d * x.d - x.t * x.dd) / x.t }
/-- `x *= x`, rall2d.h:115 with `rhs` bound to `*this`. -/
def mulAssignSelf (x : Rall2d) : Rall2d :=
  let x := { x with t := x.t * x.t }
  let x := { x with d := x.d * x.t + x.t * x.d }
  { x with dd := x.dd * x.t + 2 * x.d * x.d + x.t * x.dd }
/-- `x += x`, rall2d.h:123. -/
def addAssignSelf (x : Rall2d) : Rall2d :=
  let x := { x with t := x.t + x.t }
  let x := { x with d := x.d + x.d }
  { x with dd := x.dd + x.dd }
/-- `x -= x`, rall2d.h:131. -/
def subAssignSelf (x : Rall2d) : Rall2d :=
  let x := { x with t := x.t - x.t }
  let x := { x with d := x.d - x.d }
  { x with dd := x.dd - x.dd }
end Rall2d
end KDL
